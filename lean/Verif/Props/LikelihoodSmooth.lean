import Verif.Props.Likelihood
import Mathlib.Analysis.SpecialFunctions.Log.Deriv
import Mathlib.Analysis.Calculus.ContDiff.Operations
import Mathlib.Analysis.Calculus.FDeriv.Mul
import Mathlib.Analysis.Complex.ExponentialBounds

/-! # Properties C117 and C118: the log-likelihood as a function of the hyper-parameters, and of the weights -/

open Filter Topology Finset
open scoped ContDiff
noncomputable section
open Classical
namespace GW
open F

variable {V : Type*} [NormedAddCommGroup V] [NormedSpace ℝ V]

/-- the value contributed when no cut fires (`C47_value`) -/
def plainLogL {E N M : ℕ} (fl : Flags) (w : Fin E → Fin N → ℝ) (v : Fin M → ℝ) (n Nobs : ℕ) : ℝ :=
  ∑ e, Real.log (mean (w e)) - Nobs * Real.log ((∑ i, v i) / n) + (if fl.marginalize_selection then Nobs * (3 + Nobs) / 2 * relVar v n else 0)

omit [NormedSpace ℝ V] in
theorem plainLogL_eventually {E N M : ℕ} (fl : Flags) (w : V → Fin E → Fin N → ℝ) (v : V → Fin M → ℝ) (n Nobs : ℕ) (Tobs : F) (hv : Option F)
    (unscaled : F) (hfl : fl.ok) (hhv : fl.reconstruct_rate = true → hv ≠ none) (hE : 0 < E) (hN : 1 ≤ Nobs) (hMn : M ≤ n) (θ : V)
    (cw : ∀ e i, ContinuousAt (fun t => w t e i) θ) (cv : ∀ i, ContinuousAt (fun t => v t i) θ)
    (hw : ∀ᶠ t in 𝓝 θ, ∀ e i, 0 ≤ w t e i) (hwp : ∀ e, ∃ i, 0 < w θ e i) (hv0 : ∀ᶠ t in 𝓝 θ, ∀ i, 0 ≤ v t i) (hvp : ∃ i, 0 < v θ i)
    (hneff : fl.min_neff_cut = true → (∀ e, (Nobs : ℝ) < kish (w θ e)) ∧ 4 * (Nobs : ℝ) * relVar (v θ) n < 1)
    (hvar : fl.max_variance_cut = true → (Nobs : ℝ) ^ 2 * (relVar (v θ) n - 1 / n) + ∑ e, (1 / kish (w θ e) - 1 / N) < 1) :
    ∀ᶠ t in 𝓝 θ, factors (hierarchical_likelihood fl (.single fun e i => encode fl.log (w t e i)) (fun i => encode fl.log (v t i)) n Nobs
      Tobs hv unscaled none).1 = [fin (plainLogL fl (w t) (v t) n Nobs)] := by
  have sv : 0 < ∑ i, v θ i := (sum_pos_of hv0.self_of_nhds hvp).1
  have sw : ∀ e, 0 < ∑ i, w θ e i := fun e => (sum_pos_of (hw.self_of_nhds e) (hwp e)).1
  have sw2 : ∀ e, 0 < ∑ i, w θ e i ^ 2 := fun e => (sum_pos_of (hw.self_of_nhds e) (hwp e)).2
  have csv : ContinuousAt (fun t => ∑ i, v t i) θ := tendsto_finsetSum _ fun i _ => cv i
  have crv : ContinuousAt (fun t => relVar (v t) n) θ := by
    unfold relVar
    exact ((tendsto_finsetSum _ fun i _ => (cv i).pow 2).div (csv.pow 2) (pow_pos sv 2).ne').sub continuousAt_const
  have ck : ∀ e, ContinuousAt (fun t => kish (w t e)) θ := by
    intro e
    unfold kish
    exact ((tendsto_finsetSum _ fun i _ => cw e i).pow 2).div (tendsto_finsetSum _ fun i _ => (cw e i).pow 2) (sw2 e).ne'
  have hkp : ∀ e, kish (w θ e) ≠ 0 := fun e => (div_pos (pow_pos (sw e) 2) (sw2 e)).ne'
  have ew : ∀ᶠ t in 𝓝 θ, ∀ e, ∃ i, 0 < w t e i := by
    rw [eventually_all]
    intro e
    obtain ⟨i, hi⟩ := hwp e
    filter_upwards [(cw e i).eventually (lt_mem_nhds hi)] with t ht
    exact ⟨i, ht⟩
  have ev : ∀ᶠ t in 𝓝 θ, ∃ i, 0 < v t i := by
    obtain ⟨i, hi⟩ := hvp
    filter_upwards [(cv i).eventually (lt_mem_nhds hi)] with t ht
    exact ⟨i, ht⟩
  have en : ∀ᶠ t in 𝓝 θ, fl.min_neff_cut = true → (∀ e, (Nobs : ℝ) < kish (w t e)) ∧ 4 * (Nobs : ℝ) * relVar (v t) n ≤ 1 := by
    by_cases hc : fl.min_neff_cut = true
    · have h1 : ∀ᶠ t in 𝓝 θ, ∀ e, (Nobs : ℝ) < kish (w t e) := by
        rw [eventually_all]
        exact fun e => (ck e).eventually (lt_mem_nhds ((hneff hc).1 e))
      have h2 := (continuousAt_const.mul crv).eventually (gt_mem_nhds (hneff hc).2)
      filter_upwards [h1, h2] with t a b _
      exact ⟨a, le_of_lt b⟩
    · exact Eventually.of_forall fun t h => absurd h hc
  have eva : ∀ᶠ t in 𝓝 θ, fl.max_variance_cut = true → (Nobs : ℝ) ^ 2 * (relVar (v t) n - 1 / n) + ∑ e, (1 / kish (w t e) - 1 / N) ≤ 1 := by
    by_cases hc : fl.max_variance_cut = true
    · have cc : ContinuousAt (fun t => (Nobs : ℝ) ^ 2 * (relVar (v t) n - 1 / n) + ∑ e, (1 / kish (w t e) - 1 / N)) θ := by
        refine (continuousAt_const.mul (crv.sub continuousAt_const)).add (tendsto_finsetSum _ fun e _ => ?_)
        exact (continuousAt_const.div (ck e) (hkp e)).sub continuousAt_const
      filter_upwards [cc.eventually (gt_mem_nhds (hvar hc))] with t a _
      exact le_of_lt a
    · exact Eventually.of_forall fun t h => absurd h hc
  filter_upwards [hw, hv0, ew, ev, en, eva] with t a1 a2 a3 a4 a5 a6
  exact C47_value fl (w t) (v t) n Nobs Tobs hv unscaled none hfl hhv hE hN a1 a3 a2 a4 hMn a5 a6

/-- **C117** (smoothness).  If the weights are `k` times continuously differentiable functions of the hyper-parameters near `θ`, non-negative, with
a positive one in every event and among the injections, and no cut fires at `θ` (nor is met with equality), then near `θ` the run contributes a
`k` times continuously differentiable function of the hyper-parameters, whatever the flags. -/
theorem C117_smooth {E N M : ℕ} (fl : Flags) (w : V → Fin E → Fin N → ℝ) (v : V → Fin M → ℝ) (n Nobs : ℕ) (Tobs : F) (hv : Option F)
    (unscaled : F) (hfl : fl.ok) (hhv : fl.reconstruct_rate = true → hv ≠ none) (hE : 0 < E) (hN : 1 ≤ Nobs) (hMn : M ≤ n) (θ : V) (k : WithTop ℕ∞)
    (cw : ∀ e i, ContDiffAt ℝ k (fun t => w t e i) θ) (cv : ∀ i, ContDiffAt ℝ k (fun t => v t i) θ)
    (hw : ∀ᶠ t in 𝓝 θ, ∀ e i, 0 ≤ w t e i) (hwp : ∀ e, ∃ i, 0 < w θ e i) (hv0 : ∀ᶠ t in 𝓝 θ, ∀ i, 0 ≤ v t i) (hvp : ∃ i, 0 < v θ i)
    (hneff : fl.min_neff_cut = true → (∀ e, (Nobs : ℝ) < kish (w θ e)) ∧ 4 * (Nobs : ℝ) * relVar (v θ) n < 1)
    (hvar : fl.max_variance_cut = true → (Nobs : ℝ) ^ 2 * (relVar (v θ) n - 1 / n) + ∑ e, (1 / kish (w θ e) - 1 / N) < 1) :
    ∃ L : V → ℝ, ContDiffAt ℝ k L θ ∧
      ∀ᶠ t in 𝓝 θ, factors (hierarchical_likelihood fl (.single fun e i => encode fl.log (w t e i)) (fun i => encode fl.log (v t i)) n Nobs
        Tobs hv unscaled none).1 = [fin (L t)] := by
  refine ⟨fun t => plainLogL fl (w t) (v t) n Nobs, ?_, plainLogL_eventually fl w v n Nobs Tobs hv unscaled hfl hhv hE hN hMn θ
    (fun e i => (cw e i).continuousAt) (fun i => (cv i).continuousAt) hw hwp hv0 hvp hneff hvar⟩
  have sv : 0 < ∑ i, v θ i := (sum_pos_of hv0.self_of_nhds hvp).1
  have sw : ∀ e, 0 < ∑ i, w θ e i := fun e => (sum_pos_of (hw.self_of_nhds e) (hwp e)).1
  have hn0 : (0:ℝ) < n := by exact_mod_cast (card_pos_of hvp).trans_le hMn
  have hN0 : ∀ e : Fin E, (0:ℝ) < N := fun e => by exact_mod_cast card_pos_of (hwp e)
  have dsv : ContDiffAt ℝ k (fun t => ∑ i, v t i) θ := ContDiffAt.sum fun i _ => cv i
  unfold plainLogL
  refine ((ContDiffAt.sum fun e _ => ?_).sub (contDiffAt_const.mul ?_)).add ?_
  · unfold mean
    exact ((ContDiffAt.sum fun i _ => cw e i).div_const _).log (div_pos (sw e) (hN0 e)).ne'
  · exact (dsv.div_const _).log (div_pos sv hn0).ne'
  · cases fl.marginalize_selection
    · simp only [Bool.false_eq_true, if_false]; exact contDiffAt_const
    · simp only [if_true]
      unfold relVar
      exact contDiffAt_const.mul (((ContDiffAt.sum fun i _ => (cv i).pow 2).div (dsv.pow 2) (pow_pos sv 2).ne').sub contDiffAt_const)

/-- **C117** (gradient).  Under the same conditions, without marginalising the selection uncertainty, the derivative of the contribution is the sum over
events of the derivative of the weights averaged with the weights, minus the number of events times the same average over the found injections. -/
theorem C117_gradient {E N M : ℕ} (fl : Flags) (w : V → Fin E → Fin N → ℝ) (v : V → Fin M → ℝ) (n Nobs : ℕ) (Tobs : F) (hv : Option F)
    (unscaled : F) (hfl : fl.ok) (hms : fl.marginalize_selection = false) (hhv : fl.reconstruct_rate = true → hv ≠ none) (hE : 0 < E) (hN : 1 ≤ Nobs)
    (hMn : M ≤ n) (θ : V) (w' : Fin E → Fin N → V →L[ℝ] ℝ) (v' : Fin M → V →L[ℝ] ℝ)
    (cw : ∀ e i, HasFDerivAt (fun t => w t e i) (w' e i) θ) (cv : ∀ i, HasFDerivAt (fun t => v t i) (v' i) θ)
    (hw : ∀ᶠ t in 𝓝 θ, ∀ e i, 0 ≤ w t e i) (hwp : ∀ e, ∃ i, 0 < w θ e i) (hv0 : ∀ᶠ t in 𝓝 θ, ∀ i, 0 ≤ v t i) (hvp : ∃ i, 0 < v θ i)
    (hneff : fl.min_neff_cut = true → (∀ e, (Nobs : ℝ) < kish (w θ e)) ∧ 4 * (Nobs : ℝ) * relVar (v θ) n < 1)
    (hvar : fl.max_variance_cut = true → (Nobs : ℝ) ^ 2 * (relVar (v θ) n - 1 / n) + ∑ e, (1 / kish (w θ e) - 1 / N) < 1) :
    ∃ L : V → ℝ, (∀ᶠ t in 𝓝 θ, factors (hierarchical_likelihood fl (.single fun e i => encode fl.log (w t e i)) (fun i => encode fl.log (v t i)) n Nobs
        Tobs hv unscaled none).1 = [fin (L t)]) ∧
      HasFDerivAt L (∑ e, (∑ i, w θ e i)⁻¹ • ∑ i, w' e i - (Nobs : ℝ) • (∑ i, v θ i)⁻¹ • ∑ i, v' i) θ := by
  refine ⟨fun t => plainLogL fl (w t) (v t) n Nobs, plainLogL_eventually fl w v n Nobs Tobs hv unscaled hfl hhv hE hN hMn θ
    (fun e i => (cw e i).continuousAt) (fun i => (cv i).continuousAt) hw hwp hv0 hvp hneff hvar, ?_⟩
  have sv : 0 < ∑ i, v θ i := (sum_pos_of hv0.self_of_nhds hvp).1
  have sw : ∀ e, 0 < ∑ i, w θ e i := fun e => (sum_pos_of (hw.self_of_nhds e) (hwp e)).1
  have hn0 : (0:ℝ) < n := by exact_mod_cast (card_pos_of hvp).trans_le hMn
  have hN0 : ∀ e : Fin E, (0:ℝ) < N := fun e => by exact_mod_cast card_pos_of (hwp e)
  unfold plainLogL mean
  simp only [hms, Bool.false_eq_true, if_false, add_zero]
  have key : ∀ {m : ℕ} (f : V → Fin m → ℝ) (f' : Fin m → V →L[ℝ] ℝ) (c : ℝ), 0 < c → (∀ i, HasFDerivAt (fun t => f t i) (f' i) θ) → 0 < ∑ i, f θ i →
      HasFDerivAt (fun t => Real.log ((∑ i, f t i) / c)) ((∑ i, f θ i)⁻¹ • ∑ i, f' i) θ := by
    intro m f f' c hc hf hs
    have h1 : HasFDerivAt (fun t => ∑ i, f t i) (∑ i, f' i) θ := HasFDerivAt.fun_sum fun i _ => hf i
    have h2 := (h1.log hs.ne').sub_const (Real.log c)
    refine h2.congr_of_eventuallyEq ?_
    filter_upwards [h1.continuousAt.eventually (lt_mem_nhds hs)] with t ht
    rw [Real.log_div (ne_of_gt ht) hc.ne']
  refine HasFDerivAt.sub (HasFDerivAt.fun_sum fun e _ => key (fun t => w t e) (w' e) N (hN0 e) (cw e) (sw e)) ?_
  exact (key v v' n hn0 cv sv).const_mul _

/-! ### C118 -/

/-- `a` and `b` agree within a factor `exp ε` -/
def Within (ε a b : ℝ) : Prop := Real.exp (-ε) * a ≤ b ∧ b ≤ Real.exp ε * a

theorem Within.sum {m : ℕ} {ε : ℝ} {a b : Fin m → ℝ} (h : ∀ i, Within ε (a i) (b i)) : Within ε (∑ i, a i) (∑ i, b i) := by
  constructor
  · rw [Finset.mul_sum]; exact Finset.sum_le_sum fun i _ => (h i).1
  · rw [Finset.mul_sum]; exact Finset.sum_le_sum fun i _ => (h i).2

theorem Within.sq {ε a b : ℝ} (ha : 0 ≤ a) (h : Within ε a b) : Within (2 * ε) (a ^ 2) (b ^ 2) := by
  have hb : 0 ≤ b := (mul_nonneg (Real.exp_pos _).le ha).trans h.1
  have e1 : Real.exp (-(2 * ε)) * a ^ 2 = (Real.exp (-ε) * a) ^ 2 := by
    rw [mul_pow, ← Real.exp_nat_mul]; congr 2; push_cast; ring
  have e2 : Real.exp (2 * ε) * a ^ 2 = (Real.exp ε * a) ^ 2 := by
    rw [mul_pow, ← Real.exp_nat_mul]; congr 2
  exact ⟨by rw [e1]; exact pow_le_pow_left₀ (mul_nonneg (Real.exp_pos _).le ha) h.1 2, by rw [e2]; exact pow_le_pow_left₀ hb h.2 2⟩

theorem Within.pos {ε a b : ℝ} (ha : 0 < a) (h : Within ε a b) : 0 < b := (mul_pos (Real.exp_pos _) ha).trans_le h.1

theorem Within.div {ε δ a b c d : ℝ} (ha : 0 < a) (hc : 0 < c) (h : Within ε a b) (h' : Within δ c d) : Within (ε + δ) (a / c) (b / d) := by
  have hb := h.pos ha
  have hd := h'.pos hc
  constructor
  · rw [le_div_iff₀ hd]
    calc Real.exp (-(ε + δ)) * (a / c) * d ≤ Real.exp (-(ε + δ)) * (a / c) * (Real.exp δ * c) :=
          mul_le_mul_of_nonneg_left h'.2 (by positivity)
      _ = Real.exp (-ε) * a := by rw [show -(ε + δ) = -ε + -δ by ring, Real.exp_add, Real.exp_neg δ]; field_simp
      _ ≤ b := h.1
  · rw [div_le_iff₀ hd]
    calc b ≤ Real.exp ε * a := h.2
      _ = Real.exp (ε + δ) * (a / c) * (Real.exp (-δ) * c) := by rw [Real.exp_add, Real.exp_neg δ]; field_simp
      _ ≤ Real.exp (ε + δ) * (a / c) * d := mul_le_mul_of_nonneg_left h'.1 (by positivity)

theorem Within.log {ε a b : ℝ} (ha : 0 < a) (h : Within ε a b) : |Real.log b - Real.log a| ≤ ε := by
  have hb := h.pos ha
  have e1 := Real.log_le_log (mul_pos (Real.exp_pos _) ha) h.1
  have e2 := Real.log_le_log hb h.2
  rw [Real.log_mul (Real.exp_pos _).ne' ha.ne', Real.log_exp] at e1 e2
  rw [abs_le]
  constructor <;> linarith

/-- **C118.**  Take any two sets of weights that agree within a factor `exp ε` per posterior sample and `exp δ` per injection, and let the first pass the cuts
with a margin.  Then neither run is cut, and the two contributions to the log density differ by at most `ε` per event plus `δ` times `Nobs`, plus, when
marginalising the selection uncertainty, `exp (4 δ) - 1` times that correction's leading term. -/
theorem C118_stability {E N M : ℕ} (fl : Flags) (w w' : Fin E → Fin N → ℝ) (v v' : Fin M → ℝ) (n Nobs : ℕ) (Tobs : F) (hv : Option F)
    (unscaled : F) (ε δ : ℝ) (hε : 0 ≤ ε) (hδ : 0 ≤ δ) (hfl : fl.ok)
    (hhv : fl.reconstruct_rate = true → hv ≠ none) (hE : 0 < E) (hN : 1 ≤ Nobs) (hMn : M ≤ n)
    (hw : ∀ e i, 0 ≤ w e i) (hwp : ∀ e, ∃ i, 0 < w e i) (hv0 : ∀ i, 0 ≤ v i) (hvp : ∃ i, 0 < v i)
    (hww : ∀ e i, Real.exp (-ε) * w e i ≤ w' e i ∧ w' e i ≤ Real.exp ε * w e i)
    (hvv : ∀ i, Real.exp (-δ) * v i ≤ v' i ∧ v' i ≤ Real.exp δ * v i)
    (hneff : fl.min_neff_cut = true → (∀ e, (Nobs : ℝ) * Real.exp (4 * ε) < kish (w e)) ∧
      4 * (Nobs : ℝ) * (Real.exp (4 * δ) * ((∑ i, v i ^ 2) / (∑ i, v i) ^ 2) - 1 / n) ≤ 1)
    (hvar : fl.max_variance_cut = true → (Nobs : ℝ) ^ 2 * (Real.exp (4 * δ) * ((∑ i, v i ^ 2) / (∑ i, v i) ^ 2) - 1 / n - 1 / n)
      + ∑ e, (Real.exp (4 * ε) / kish (w e) - 1 / N) ≤ 1) :
    ∃ L L' : ℝ,
      factors (hierarchical_likelihood fl (.single fun e i => encode fl.log (w e i)) (fun i => encode fl.log (v i)) n Nobs Tobs hv unscaled none).1 = [fin L] ∧
      factors (hierarchical_likelihood fl (.single fun e i => encode fl.log (w' e i)) (fun i => encode fl.log (v' i)) n Nobs Tobs hv unscaled none).1 = [fin L'] ∧
      |L' - L| ≤ E * ε + Nobs * δ + (if fl.marginalize_selection then
        Nobs * (3 + Nobs) / 2 * ((Real.exp (4 * δ) - 1) * ((∑ i, v i ^ 2) / (∑ i, v i) ^ 2)) else 0) := by
  have Ww : ∀ e i, Within ε (w e i) (w' e i) := hww
  have Wv : ∀ i, Within δ (v i) (v' i) := hvv
  have sv := sum_pos_of hv0 hvp
  have sw := fun e => sum_pos_of (hw e) (hwp e)
  have hn0 : (0:ℝ) < n := by exact_mod_cast (card_pos_of hvp).trans_le hMn
  have hN0 : ∀ e : Fin E, (0:ℝ) < N := fun e => by exact_mod_cast card_pos_of (hwp e)
  have hNr : (1:ℝ) ≤ Nobs := by exact_mod_cast hN
  have hw0' : ∀ e i, 0 ≤ w' e i := fun e i => (mul_nonneg (Real.exp_pos _).le (hw e i)).trans (hww e i).1
  have hwp' : ∀ e, ∃ i, 0 < w' e i := fun e => (hwp e).imp fun i hi => (Ww e i).pos hi
  have hv0' : ∀ i, 0 ≤ v' i := fun i => (mul_nonneg (Real.exp_pos _).le (hv0 i)).trans (hvv i).1
  have hvp' : ∃ i, 0 < v' i := hvp.imp fun i hi => (Wv i).pos hi
  have Sw : ∀ e, Within ε (∑ i, w e i) (∑ i, w' e i) := fun e => Within.sum (Ww e)
  have Sv : Within δ (∑ i, v i) (∑ i, v' i) := Within.sum Wv
  have e4 : ∀ x : ℝ, 2 * x + 2 * x = 4 * x := fun x => by ring
  have Wk : ∀ e, Within (4 * ε) (kish (w e)) (kish (w' e)) := by
    intro e
    unfold kish
    have := ((Sw e).sq (sw e).1.le).div (pow_pos (sw e).1 2) (sw e).2 (Within.sum fun i => (Ww e i).sq (hw e i))
    rwa [e4] at this
  have Wr : Within (4 * δ) ((∑ i, v i ^ 2) / (∑ i, v i) ^ 2) ((∑ i, v' i ^ 2) / (∑ i, v' i) ^ 2) := by
    have := (Within.sum fun i => (Wv i).sq (hv0 i)).div sv.2 (pow_pos sv.1 2) (Sv.sq sv.1.le)
    rwa [e4] at this
  have h1 : fl.min_neff_cut = true → (∀ e, (Nobs : ℝ) < kish (w e)) ∧ 4 * (Nobs : ℝ) * relVar v n ≤ 1 := by
    intro hc
    obtain ⟨a, b⟩ := hneff hc
    refine ⟨fun e => lt_of_le_of_lt ?_ (a e), le_trans ?_ b⟩
    · have : (1:ℝ) ≤ Real.exp (4 * ε) := Real.one_le_exp (by linarith)
      nlinarith
    · unfold relVar
      have h1 : (1:ℝ) ≤ Real.exp (4 * δ) := Real.one_le_exp (by linarith)
      have h2 : 0 < (∑ i, v i ^ 2) / (∑ i, v i) ^ 2 := div_pos sv.2 (pow_pos sv.1 2)
      refine mul_le_mul_of_nonneg_left ?_ (by linarith)
      nlinarith
  have h2 : fl.min_neff_cut = true → (∀ e, (Nobs : ℝ) < kish (w' e)) ∧ 4 * (Nobs : ℝ) * relVar v' n ≤ 1 := by
    intro hc
    obtain ⟨a, b⟩ := hneff hc
    refine ⟨fun e => lt_of_lt_of_le ?_ (Wk e).1, le_trans ?_ b⟩
    · have := mul_lt_mul_of_pos_left (a e) (Real.exp_pos (-(4 * ε)))
      rw [mul_left_comm, ← Real.exp_add, neg_add_cancel, Real.exp_zero, mul_one] at this
      exact this
    · unfold relVar
      refine mul_le_mul_of_nonneg_left ?_ (by linarith)
      linarith [Wr.2]
  have hkp : ∀ e, 0 < kish (w e) := fun e => div_pos (pow_pos (sw e).1 2) (sw e).2
  have hR : 0 < (∑ i, v i ^ 2) / (∑ i, v i) ^ 2 := div_pos sv.2 (pow_pos sv.1 2)
  have hx1 : (1:ℝ) ≤ Real.exp (4 * δ) := Real.one_le_exp (by linarith)
  have hx2 : (1:ℝ) ≤ Real.exp (4 * ε) := Real.one_le_exp (by linarith)
  have h3 : fl.max_variance_cut = true → (Nobs : ℝ) ^ 2 * (relVar v n - 1 / n) + ∑ e, (1 / kish (w e) - 1 / N) ≤ 1 := by
    intro hc
    refine le_trans (add_le_add (mul_le_mul_of_nonneg_left ?_ (by positivity)) (Finset.sum_le_sum fun e _ => ?_)) (hvar hc)
    · unfold relVar; nlinarith
    · exact sub_le_sub_right (div_le_div_of_nonneg_right hx2 (hkp e).le) _
  have h4 : fl.max_variance_cut = true → (Nobs : ℝ) ^ 2 * (relVar v' n - 1 / n) + ∑ e, (1 / kish (w' e) - 1 / N) ≤ 1 := by
    intro hc
    refine le_trans (add_le_add (mul_le_mul_of_nonneg_left ?_ (by positivity)) (Finset.sum_le_sum fun e _ => ?_)) (hvar hc)
    · unfold relVar; linarith [Wr.2]
    · refine sub_le_sub_right ?_ _
      rw [div_le_div_iff₀ ((Wk e).pos (hkp e)) (hkp e), one_mul]
      have := mul_le_mul_of_nonneg_left (Wk e).1 (Real.exp_pos (4 * ε)).le
      rwa [← mul_assoc, ← Real.exp_add, add_neg_cancel, Real.exp_zero, one_mul] at this
  refine ⟨_, _, C47_value fl w v n Nobs Tobs hv unscaled none hfl hhv hE hN hw hwp hv0 hvp hMn h1 h3,
    C47_value fl w' v' n Nobs Tobs hv unscaled none hfl hhv hE hN hw0' hwp' hv0' hvp' hMn h2 h4, ?_⟩
  have d1 : ∀ e, |Real.log (mean (w' e)) - Real.log (mean (w e))| ≤ ε := by
    intro e
    have hs' := (Sw e).pos (sw e).1
    unfold mean
    rw [Real.log_div hs'.ne' (hN0 e).ne', Real.log_div (sw e).1.ne' (hN0 e).ne', sub_sub_sub_cancel_right]
    exact (Sw e).log (sw e).1
  have d2 : |Real.log ((∑ i, v' i) / n) - Real.log ((∑ i, v i) / n)| ≤ δ := by
    have hs' := Sv.pos sv.1
    rw [Real.log_div hs'.ne' hn0.ne', Real.log_div sv.1.ne' hn0.ne', sub_sub_sub_cancel_right]
    exact Sv.log sv.1
  have d3 : |∑ e, Real.log (mean (w' e)) - ∑ e, Real.log (mean (w e))| ≤ E * ε := by
    rw [← Finset.sum_sub_distrib]
    refine (Finset.abs_sum_le_sum_abs _ _).trans ((Finset.sum_le_sum fun e _ => d1 e).trans ?_)
    simp
  have e5 : ∑ e, Real.log (mean (w' e)) - Nobs * Real.log ((∑ i, v' i) / n) - (∑ e, Real.log (mean (w e)) - Nobs * Real.log ((∑ i, v i) / n))
      = (∑ e, Real.log (mean (w' e)) - ∑ e, Real.log (mean (w e))) - Nobs * (Real.log ((∑ i, v' i) / n) - Real.log ((∑ i, v i) / n)) := by ring
  have d4 : |∑ e, Real.log (mean (w' e)) - Nobs * Real.log ((∑ i, v' i) / n) - (∑ e, Real.log (mean (w e)) - Nobs * Real.log ((∑ i, v i) / n))|
      ≤ E * ε + Nobs * δ := by
    rw [e5]
    refine (abs_sub _ _).trans (add_le_add d3 ?_)
    rw [abs_mul, abs_of_nonneg (by linarith : (0:ℝ) ≤ Nobs)]
    exact mul_le_mul_of_nonneg_left d2 (by linarith)
  have d5 : |relVar v' n - relVar v n| ≤ (Real.exp (4 * δ) - 1) * ((∑ i, v i ^ 2) / (∑ i, v i) ^ 2) := by
    unfold relVar
    rw [sub_sub_sub_cancel_right, abs_le]
    have hinv : 2 - Real.exp (4 * δ) ≤ Real.exp (-(4 * δ)) := by
      rw [Real.exp_neg]
      have hp := Real.exp_pos (4 * δ)
      rw [← one_div, le_div_iff₀ hp]
      nlinarith [sq_nonneg (Real.exp (4 * δ) - 1)]
    constructor
    · nlinarith [Wr.1, mul_le_mul_of_nonneg_right hinv hR.le]
    · linarith [Wr.2]
  cases fl.marginalize_selection
  · simpa using d4
  · simp only [if_true]
    have hk : (0:ℝ) ≤ Nobs * (3 + Nobs) / 2 := by positivity
    rw [add_sub_add_comm, ← mul_sub]
    refine (abs_add_le _ _).trans (add_le_add d4 ?_)
    rw [abs_mul, abs_of_nonneg hk]
    exact mul_le_mul_of_nonneg_left d5 hk

/-- the hypotheses of `C117_gradient` and `C117_smooth` are met: two samples whose weights are `exp t` and `1`, three injections with weights `exp t`, `1`, `1` -/
example : ∃ (w : ℝ → Fin 1 → Fin 2 → ℝ) (v : ℝ → Fin 3 → ℝ), (∀ e i, ContDiffAt ℝ ∞ (fun t => w t e i) 0) ∧ (∀ i, ContDiffAt ℝ ∞ (fun t => v t i) 0) ∧
    (∀ t e i, 0 < w t e i) ∧ (∀ t i, 0 < v t i) ∧ (∀ e, ((1:ℕ) : ℝ) < kish (w 0 e)) ∧ 4 * ((1:ℕ) : ℝ) * relVar (v 0) 3 < 1 ∧
    (((1:ℕ) : ℝ)) ^ 2 * (relVar (v 0) 3 - 1 / 3) + ∑ e, (1 / kish (w 0 e) - 1 / 2) < 1 := by
  refine ⟨fun t _ i => if i = 0 then Real.exp t else 1, fun t i => if i = 0 then Real.exp t else 1, ?_, ?_, ?_, ?_, ?_, ?_, ?_⟩
  · intro e i; by_cases h : i = 0
    · simp only [h, if_true]; exact Real.contDiff_exp.contDiffAt
    · simp only [h, if_false]; exact contDiffAt_const
  · intro i; by_cases h : i = 0
    · simp only [h, if_true]; exact Real.contDiff_exp.contDiffAt
    · simp only [h, if_false]; exact contDiffAt_const
  · intro t e i; dsimp only; split_ifs <;> positivity
  · intro t i; dsimp only; split_ifs <;> positivity
  · intro e; simp [kish, Fin.sum_univ_succ]; norm_num
  · simp [relVar, Fin.sum_univ_succ]; norm_num
  · simp [relVar, kish, Fin.sum_univ_succ]; norm_num

/-- `C118_stability` applied: one event of 100 samples and 100 injections, all of weight one, against any weights within one part in a hundred, default flags -/
example (w' : Fin 1 → Fin 100 → ℝ) (v' : Fin 100 → ℝ) (hw : ∀ e i, Real.exp (-(1/100)) * 1 ≤ w' e i ∧ w' e i ≤ Real.exp (1/100) * 1)
    (hv : ∀ i, Real.exp (-(1/100)) * 1 ≤ v' i ∧ v' i ≤ Real.exp (1/100) * 1) :
    ∃ L L' : ℝ,
      factors (hierarchical_likelihood {} (.single fun (_ : Fin 1) (_ : Fin 100) => encode false 1) (fun _ : Fin 100 => encode false 1) 100 1 1 (some 1) 1 none).1 = [fin L] ∧
      factors (hierarchical_likelihood {} (.single fun e i => encode false (w' e i)) (fun i => encode false (v' i)) 100 1 1 (some 1) 1 none).1 = [fin L'] ∧
      |L' - L| ≤ 1 / 50 := by
  have h : Real.exp (4 * (1/100)) < 3 := lt_trans (Real.exp_lt_exp.2 (by norm_num)) (lt_trans Real.exp_one_lt_d9 (by norm_num))
  obtain ⟨L, L', a, b, c⟩ := C118_stability {} (fun (_ : Fin 1) (_ : Fin 100) => 1) w' (fun _ : Fin 100 => 1) v' 100 1 1 (some 1) 1 (1/100) (1/100)
    (by norm_num) (by norm_num) (by simp [Flags.ok]) (by simp) (by norm_num) le_rfl le_rfl (by norm_num) (fun _ => ⟨0, by norm_num⟩) (by norm_num) ⟨0, by norm_num⟩
    hw hv (fun _ => ⟨fun _ => by simp only [kish]; norm_num at h ⊢; linarith, by norm_num at h ⊢; linarith⟩) (by simp)
  refine ⟨L, L', a, b, c.trans ?_⟩
  norm_num

end GW
end
