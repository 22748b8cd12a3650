import Verif.Model.Analysis
import Mathlib.Algebra.Order.Chebyshev
import Mathlib.Algebra.Order.BigOperators.Ring.Finset
import Mathlib.Tactic.Linarith
import Mathlib.Tactic.FieldSimp
import Mathlib.Tactic.Ring
import Mathlib.Tactic.Positivity

/-!
# C40–C44: the Monte Carlo estimators of `gwinferno/pipeline/analysis.py`

Weights are non-negative real numbers; `encode log w` is the array a caller passes: the weights themselves, or with
`log=True` their logarithms (a weight 0 is passed as `-inf`).
-/

open Finset
noncomputable section
open Classical
namespace GW
open F

/-- what the caller passes for the weight `w` -/
def encode (log : Bool) (w : ℝ) : F := if log then F.log (fin w) else fin w

/-- mean of the weights: the importance sampling estimate of the Bayes factor -/
def mean {N : ℕ} (w : Fin N → ℝ) : ℝ := (∑ i, w i) / N
/-- Kish effective sample size -/
def kish {N : ℕ} (w : Fin N → ℝ) : ℝ := (∑ i, w i) ^ 2 / ∑ i, w i ^ 2
/-- relative Monte Carlo variance of `(1/n) ∑ w` where the `n - M` injections not found contribute zero -/
def relVar {M : ℕ} (w : Fin M → ℝ) (n : ℕ) : ℝ := (∑ i, w i ^ 2) / (∑ i, w i) ^ 2 - 1 / n

/-! ### lemmas -/

theorem log_fin_nonneg {x : ℝ} (h : 0 ≤ x) : (x = 0 ∧ F.log (fin x) = ninf) ∨ (0 < x ∧ F.log (fin x) = fin (Real.log x)) := by
  rcases h.eq_or_lt with h | h
  · subst h; exact Or.inl ⟨rfl, log_zero⟩
  · exact Or.inr ⟨h, log_fin h⟩

theorem exp_log_sub {x : ℝ} (h : 0 ≤ x) (m : ℝ) : exp (F.log (fin x) - fin m) = fin (x * Real.exp (-m)) := by
  rcases log_fin_nonneg h with ⟨h0, e⟩ | ⟨h0, e⟩
  · rw [e]; simp [h0]
  · rw [e, sub_fin, exp_fin, sub_eq_add_neg, Real.exp_add, Real.exp_log h0]

theorem exp_log_nonneg {x : ℝ} (h : 0 ≤ x) : exp (F.log (fin x)) = fin x := by
  rcases log_fin_nonneg h with ⟨h0, e⟩ | ⟨h0, e⟩
  · rw [e]; simp [h0]
  · rw [e, exp_fin, Real.exp_log h0]

theorem logsumexp_log {N : ℕ} (w : Fin N → ℝ) (hw : ∀ i, 0 ≤ w i) :
    logsumexp (fun i => F.log (fin (w i))) = F.log (fin (∑ i, w i)) := by
  have hm : ∃ m : ℝ, (if isfinite (maxF fun i => F.log (fin (w i))) then (maxF fun i => F.log (fin (w i))) else 0 : F)
      = fin m := by
    by_cases h : isfinite (maxF fun i => F.log (fin (w i)))
    · rw [if_pos h]; exact h
    · rw [if_neg h]; exact ⟨0, rfl⟩
  obtain ⟨m, hm⟩ := hm
  unfold logsumexp
  simp only [hm]
  rw [Finset.sum_congr rfl (fun i _ => exp_log_sub (hw i) m), sum_fin, ← Finset.sum_mul]
  have hS : 0 ≤ ∑ i, w i := Finset.sum_nonneg fun i _ => hw i
  rcases hS.eq_or_lt with h | h
  · rw [← h]; simp
  · rw [log_fin h, log_fin (mul_pos h (Real.exp_pos _)), Real.log_mul h.ne' (Real.exp_pos _).ne', Real.log_exp]
    simp

theorem two_mul_log {x : ℝ} (h : 0 ≤ x) : (2 : F) * F.log (fin x) = F.log (fin (x * x)) := by
  rcases log_fin_nonneg h with ⟨h0, e⟩ | ⟨h0, e⟩
  · rw [e, h0]; simp [fin_mul_ninf, infOfSign]
  · rw [e, log_fin (mul_pos h0 h0), Real.log_mul h0.ne' h0.ne']; simp; ring

/-- the log path computes the linear quantities -/
theorem perEventRow_encode {N : ℕ} (hN : 0 < N) (w : Fin N → ℝ) (hw : ∀ i, 0 ≤ w i) (lg : Bool) :
    perEventRow (fun i => encode lg (w i)) lg = perEventRow (fun i => fin (w i)) false := by
  cases lg with
  | false => rfl
  | true =>
    have hNr : (0 : ℝ) < N := by exact_mod_cast hN
    have hS : 0 ≤ ∑ i, w i := Finset.sum_nonneg fun i _ => hw i
    have hQ : 0 ≤ ∑ i, w i * w i := Finset.sum_nonneg fun i _ => mul_self_nonneg _
    have e1 : logsumexp (fun i => encode true (w i)) = F.log (fin (∑ i, w i)) := logsumexp_log w hw
    have e2 : logsumexp (fun i => (2 : F) * encode true (w i)) = F.log (fin (∑ i, w i * w i)) := by
      rw [← logsumexp_log (fun i => w i * w i) (fun i => mul_self_nonneg _)]
      exact congrArg logsumexp (funext fun i => two_mul_log (hw i))
    have hbf : F.log (fin (∑ i, w i)) - F.log (fin N) = F.log ((∑ i, fin (w i)) / fin N) := by
      rw [sum_fin, div_fin hNr.ne', log_fin hNr]
      rcases log_fin_nonneg hS with ⟨h0, e⟩ | ⟨h0, e⟩
      · rw [e, h0]; simp
      · rw [e, log_fin (div_pos h0 hNr), Real.log_div h0.ne' hNr.ne']; simp
    have hne : (2 : F) * F.log (fin (∑ i, w i)) - F.log (fin (∑ i, w i * w i))
        = F.log (sq (∑ i, fin (w i)) / ∑ i, sq (fin (w i))) := by
      rw [two_mul_log hS]
      simp only [sq_fin, sum_fin]
      rcases hQ.eq_or_lt with h | h
      · have hz : ∀ i, w i = 0 := by
          intro i
          have := (Finset.sum_eq_zero_iff_of_nonneg (fun i _ => mul_self_nonneg (w i))).1 h.symm i (mem_univ i)
          exact mul_self_eq_zero.1 this
        simp [hz, div_fin_zero]
      · have hS' : 0 < ∑ i, w i := by
          rcases hS.eq_or_lt with h' | h'
          · have hz := (Finset.sum_eq_zero_iff_of_nonneg (fun i _ => hw i)).1 h'.symm
            simp [fun i => hz i (mem_univ i)] at h
          · exact h'
        rw [div_fin h.ne', log_fin h, log_fin (mul_pos hS' hS'), log_fin (div_pos (mul_pos hS' hS') h),
          Real.log_div (mul_pos hS' hS').ne' h.ne', sub_fin]
    unfold perEventRow
    simp only [if_true, e1, e2, hbf, hne, Bool.false_eq_true, if_false]

theorem sum_pos_of {N : ℕ} {w : Fin N → ℝ} (hw : ∀ i, 0 ≤ w i) (hp : ∃ i, 0 < w i) :
    0 < ∑ i, w i ∧ 0 < ∑ i, w i ^ 2 := by
  obtain ⟨i, hi⟩ := hp
  exact ⟨Finset.sum_pos' (fun i _ => hw i) ⟨i, mem_univ i, hi⟩,
    Finset.sum_pos' (fun i _ => sq_nonneg _) ⟨i, mem_univ i, by positivity⟩⟩

theorem card_pos_of {N : ℕ} {w : Fin N → ℝ} (hp : ∃ i, 0 < w i) : 0 < N := by
  obtain ⟨i, _⟩ := hp; exact i.pos

/-- explicit values of the per-event outputs -/
theorem perEventRow_value {N : ℕ} (w : Fin N → ℝ) (hw : ∀ i, 0 ≤ w i) (hp : ∃ i, 0 < w i) (lg : Bool) :
    perEventRow (fun i => encode lg (w i)) lg
      = (fin (Real.log (mean w)), fin (Real.log (kish w)), fin (1 / kish w - 1 / N)) := by
  obtain ⟨hS, hQ⟩ := sum_pos_of hw hp
  have hN := card_pos_of hp
  have hNr : (0 : ℝ) < N := by exact_mod_cast hN
  have hk : 0 < kish w := div_pos (pow_pos hS 2) hQ
  rw [perEventRow_encode hN w hw]
  have hk2 : F.log (sq (∑ i, fin (w i)) / ∑ i, sq (fin (w i))) = fin (Real.log (kish w)) := by
    simp only [sq_fin, sum_fin, ← pow_two]
    rw [div_fin hQ.ne']; exact log_fin hk
  unfold perEventRow
  simp only [Bool.false_eq_true, if_false, hk2]
  rw [sum_fin, div_fin hNr.ne', log_fin (div_pos hS hNr), exp_fin, Real.exp_log hk, one_def, div_fin hk.ne',
    div_fin hNr.ne', sub_fin]
  rfl

/-! ### C40 -/

/-- C40: for all non-negative weights — zeros allowed, even all zero — the linear and the log path return the same Bayes
factors, effective sample sizes and variances. -/
theorem C40_log_linear_agree {E N : ℕ} (hN : 0 < N) (w : Fin E → Fin N → ℝ) (hw : ∀ e i, 0 ≤ w e i) :
    per_event_log_bayes_factors (fun e i => F.log (fin (w e i))) true
      = per_event_log_bayes_factors (fun e i => fin (w e i)) false := by
  have := fun e => perEventRow_encode hN (w e) (hw e) true
  unfold per_event_log_bayes_factors
  exact Prod.ext (funext fun e => by simpa [encode] using congrArg Prod.fst (this e))
    (Prod.ext (funext fun e => by simpa [encode] using congrArg (fun p => p.2.1) (this e))
      (funext fun e => by simpa [encode] using congrArg (fun p => p.2.2) (this e)))

/-- C40: and the common value is the documented importance-sampling estimate with its Kish effective sample size. -/
theorem C40_value {E N : ℕ} (w : Fin E → Fin N → ℝ) (hw : ∀ e i, 0 ≤ w e i) (hp : ∀ e, ∃ i, 0 < w e i) (lg : Bool) :
    per_event_log_bayes_factors (fun e i => encode lg (w e i)) lg
      = (fun e => fin (Real.log (mean (w e))), fun e => fin (Real.log (kish (w e))),
         fun e => fin (1 / kish (w e) - 1 / N)) := by
  have := fun e => perEventRow_value (w e) (hw e) (hp e) lg
  unfold per_event_log_bayes_factors
  simp only [this]

/-- hypotheses are met: two events, three samples, one weight zero -/
example : (per_event_log_bayes_factors (fun (_ : Fin 2) (i : Fin 3) => encode true (i : ℕ)) true).1 0 = fin (Real.log 1) := by
  rw [C40_value (fun (_ : Fin 2) (i : Fin 3) => ((i : ℕ) : ℝ)) (fun _ _ => Nat.cast_nonneg _) (fun _ => ⟨1, by simp⟩)]
  simp [mean, Fin.sum_univ_three]; norm_num

/-! ### C41 -/

theorem sum_sq_sub {N : ℕ} (w : Fin N → ℝ) :
    ∑ i, ∑ j, (w i - w j) ^ 2 = 2 * N * ∑ i, w i ^ 2 - 2 * (∑ i, w i) ^ 2 := by
  have : ∀ i j, (w i - w j) ^ 2 = w i ^ 2 + w j ^ 2 - 2 * (w i * w j) := fun i j => by ring
  simp only [this, Finset.sum_sub_distrib, Finset.sum_add_distrib, Finset.sum_const, Finset.card_univ, Fintype.card_fin,
    nsmul_eq_mul, ← Finset.mul_sum, ← Finset.sum_mul]
  ring

theorem kish_bounds {N : ℕ} (w : Fin N → ℝ) (hw : ∀ i, 0 ≤ w i) (hp : ∃ i, 0 < w i) :
    1 ≤ kish w ∧ kish w ≤ N ∧ (kish w = N ↔ ∀ i j, w i = w j) := by
  obtain ⟨hS, hQ⟩ := sum_pos_of hw hp
  have hcs := sum_sq_sub w
  have hnn : 0 ≤ ∑ i, ∑ j, (w i - w j) ^ 2 := Finset.sum_nonneg fun i _ => Finset.sum_nonneg fun j _ => sq_nonneg _
  refine ⟨?_, ?_, ?_⟩
  · rw [kish, le_div_iff₀ hQ, one_mul]
    exact Finset.sum_sq_le_sq_sum_of_nonneg fun i _ => hw i
  · rw [kish, div_le_iff₀ hQ]; linarith
  · rw [kish, div_eq_iff hQ.ne']
    constructor
    · intro h i j
      have h0 : ∑ i, ∑ j, (w i - w j) ^ 2 = 0 := by rw [hcs, h]; ring
      have h1 := (Finset.sum_eq_zero_iff_of_nonneg
        (fun i _ => Finset.sum_nonneg fun j _ => sq_nonneg (w i - w j))).1 h0 i (mem_univ i)
      have h2 := (Finset.sum_eq_zero_iff_of_nonneg (fun j _ => sq_nonneg (w i - w j))).1 h1 j (mem_univ j)
      exact sub_eq_zero.1 (pow_eq_zero_iff two_ne_zero |>.1 h2)
    · intro h
      have h0 : ∑ i, ∑ j, (w i - w j) ^ 2 = 0 :=
        Finset.sum_eq_zero fun i _ => Finset.sum_eq_zero fun j _ => by rw [h i j]; ring
      rw [hcs] at h0; linarith

/-- C41: for non-negative weights, not all zero in the event, the reported effective sample size `n = exp(log n_eff)` lies
between 1 and the number of samples, reaches it exactly for equal weights, and the reported variance is non-negative —
on both paths. -/
theorem C41_neff_bounds {E N : ℕ} (w : Fin E → Fin N → ℝ) (hw : ∀ e i, 0 ≤ w e i) (hp : ∀ e, ∃ i, 0 < w e i) (lg : Bool)
    (e : Fin E) : ∃ n v : ℝ,
      exp ((per_event_log_bayes_factors (fun e i => encode lg (w e i)) lg).2.1 e) = fin n ∧
      (per_event_log_bayes_factors (fun e i => encode lg (w e i)) lg).2.2 e = fin v ∧
      1 ≤ n ∧ n ≤ N ∧ (n = N ↔ ∀ i j, w e i = w e j) ∧ 0 ≤ v ∧ (v = 0 ↔ ∀ i j, w e i = w e j) := by
  obtain ⟨h1, h2, h3⟩ := kish_bounds (w e) (hw e) (hp e)
  have hk : 0 < kish (w e) := by linarith
  have hNr : (0 : ℝ) < N := by linarith
  refine ⟨kish (w e), 1 / kish (w e) - 1 / N, ?_, ?_, h1, h2, h3, ?_, ?_⟩
  · rw [C40_value w hw hp]; simp [Real.exp_log hk]
  · rw [C40_value w hw hp]
  · exact sub_nonneg.2 (one_div_le_one_div_of_le hk h2)
  · rw [← h3, sub_eq_zero]
    constructor
    · intro h; field_simp at h; linarith
    · intro h; rw [h]

example : ∃ n v : ℝ, exp ((per_event_log_bayes_factors (fun (_ : Fin 1) (i : Fin 3) => encode false (i : ℕ)) false).2.1 0) = fin n ∧
    1 ≤ n ∧ n ≤ 3 ∧ 0 ≤ v := by
  obtain ⟨n, v, h, _, a, b, _, c, _⟩ := C41_neff_bounds (fun (_ : Fin 1) (i : Fin 3) => ((i : ℕ) : ℝ))
    (fun _ _ => Nat.cast_nonneg _) (fun _ => ⟨1, by simp⟩) false 0
  exact ⟨n, v, h, a, by exact_mod_cast b, c⟩

/-! ### C42 -/

theorem maxF_perm {N : ℕ} (σ : Equiv.Perm (Fin N)) (a : Fin N → F) : maxF (fun i => a (σ i)) = maxF a := by
  unfold maxF
  have h := Finset.fold_map (op := F.max) (b := ninf) (f := a) (g := σ.toEmbedding) (s := univ)
  rw [Finset.map_univ_equiv] at h
  exact h.symm

theorem minF_perm {N : ℕ} (σ : Equiv.Perm (Fin N)) (a : Fin N → F) : minF (fun i => a (σ i)) = minF a := by
  unfold minF
  have h := Finset.fold_map (op := F.min) (b := pinf) (f := a) (g := σ.toEmbedding) (s := univ)
  rw [Finset.map_univ_equiv] at h
  exact h.symm

theorem logsumexp_perm {N : ℕ} (σ : Equiv.Perm (Fin N)) (a : Fin N → F) : logsumexp (fun i => a (σ i)) = logsumexp a := by
  unfold logsumexp
  simp only [maxF_perm σ a]
  rw [Equiv.sum_comp σ (fun i => exp (a i - _))]

theorem perEventRow_perm {N : ℕ} (σ : Equiv.Perm (Fin N)) (a : Fin N → F) (lg : Bool) :
    perEventRow (fun i => a (σ i)) lg = perEventRow a lg := by
  unfold perEventRow
  simp only [logsumexp_perm σ a, logsumexp_perm σ (fun i => 2 * a i), Equiv.sum_comp σ a, Equiv.sum_comp σ (fun i => sq (a i))]

/-- C42: reordering the samples of each event (by a permutation that may differ from event to event) changes nothing,
whatever the weights are — negative, infinite or NaN included. -/
theorem C42_sample_order {E N : ℕ} (σ : Fin E → Equiv.Perm (Fin N)) (w : Fin E → Fin N → F) (lg : Bool) :
    per_event_log_bayes_factors (fun e i => w e (σ e i)) lg = per_event_log_bayes_factors w lg := by
  unfold per_event_log_bayes_factors
  simp only [perEventRow_perm]

/-- C42: reordering the injections changes nothing. -/
theorem C42_injection_order {M : ℕ} (σ : Equiv.Perm (Fin M)) (w : Fin M → F) (Ninj : ℕ) (lg : Bool) :
    detection_efficiency (fun i => w (σ i)) Ninj lg = detection_efficiency w Ninj lg := by
  unfold detection_efficiency
  simp only [logsumexp_perm σ w, Equiv.sum_comp σ w, Equiv.sum_comp σ (fun i => sq (w i)),
    Equiv.sum_comp σ (fun i => sq (exp (w i)))]

theorem kish_scale {N : ℕ} (w : Fin N → ℝ) {c : ℝ} (hc : 0 < c) : kish (fun i => c * w i) = kish w := by
  unfold kish
  simp only [mul_pow, ← Finset.mul_sum]
  rw [mul_div_mul_left _ _ (pow_pos hc 2).ne']

theorem mean_scale {N : ℕ} (w : Fin N → ℝ) (c : ℝ) : mean (fun i => c * w i) = c * mean w := by
  unfold mean
  rw [← Finset.mul_sum, mul_div_assoc]

theorem mean_pos {N : ℕ} {w : Fin N → ℝ} (hw : ∀ i, 0 ≤ w i) (hp : ∃ i, 0 < w i) : 0 < mean w :=
  div_pos (sum_pos_of hw hp).1 (by exact_mod_cast card_pos_of hp)

/-- C42: multiplying the weights of event `e` by `c e > 0` shifts its log Bayes factor by `log (c e)` and leaves its
effective sample size and variance unchanged. -/
theorem C42_rescale_events {E N : ℕ} (w : Fin E → Fin N → ℝ) (hw : ∀ e i, 0 ≤ w e i) (hp : ∀ e, ∃ i, 0 < w e i)
    (c : Fin E → ℝ) (hc : ∀ e, 0 < c e) (lg : Bool) :
    let old := per_event_log_bayes_factors (fun e i => encode lg (w e i)) lg
    let new := per_event_log_bayes_factors (fun e i => encode lg (c e * w e i)) lg
    (∀ e, new.1 e = old.1 e + fin (Real.log (c e))) ∧ new.2 = old.2 := by
  have h1 := C40_value w hw hp lg
  have h2 := C40_value (fun e i => c e * w e i) (fun e i => mul_nonneg (hc e).le (hw e i))
    (fun e => (hp e).imp fun i hi => mul_pos (hc e) hi) lg
  simp only [h1, h2, kish_scale _ (hc _), mean_scale]
  refine ⟨fun e => ?_, trivial⟩
  rw [Real.log_mul (hc e).ne' (mean_pos (hw e) (hp e)).ne', add_fin, add_comm]

/-! ### detection efficiency -/

theorem detection_efficiency_encode {M n : ℕ} (hn : 0 < n) (w : Fin M → ℝ) (hw : ∀ i, 0 ≤ w i) (lg : Bool) :
    detection_efficiency (fun i => encode lg (w i)) n lg = detection_efficiency (fun i => fin (w i)) n false := by
  cases lg with
  | false => rfl
  | true =>
    have hnr : (0 : ℝ) < n := by exact_mod_cast hn
    have hS : 0 ≤ ∑ i, w i := Finset.sum_nonneg fun i _ => hw i
    have e1 : logsumexp (fun i => encode true (w i)) = F.log (fin (∑ i, w i)) := logsumexp_log w hw
    have hmu : F.log (fin (∑ i, w i)) - F.log (fin n) = F.log ((∑ i, fin (w i)) / fin n) := by
      rw [sum_fin, div_fin hnr.ne', log_fin hnr]
      rcases log_fin_nonneg hS with ⟨h0, e⟩ | ⟨h0, e⟩
      · rw [e, h0]; simp
      · rw [e, log_fin (div_pos h0 hnr), Real.log_div h0.ne' hnr.ne']; simp
    have hex : exp (F.log ((∑ i, fin (w i)) / fin n)) = (∑ i, fin (w i)) / fin n := by
      rw [sum_fin, div_fin hnr.ne', exp_log_nonneg (div_nonneg hS hnr.le)]
    have hsq : ∀ i, sq (exp (encode true (w i))) = sq (fin (w i)) := fun i => by
      change sq (exp (F.log (fin (w i)))) = _
      rw [exp_log_nonneg (hw i)]
    unfold detection_efficiency
    simp only [if_true, e1, hmu, hex, hsq, Bool.false_eq_true, if_false]

/-- C44: for all non-negative weights (zeros allowed, even all zero) the linear and the log path return the same
efficiency, effective sample size and variance. -/
theorem C44_log_linear_agree {M n : ℕ} (hn : 0 < n) (w : Fin M → ℝ) (hw : ∀ i, 0 ≤ w i) :
    detection_efficiency (fun i => F.log (fin (w i))) n true = detection_efficiency (fun i => fin (w i)) n false :=
  detection_efficiency_encode hn w hw true

example : detection_efficiency (fun i : Fin 3 => F.log (fin ((i : ℕ) : ℝ))) 10 true
    = detection_efficiency (fun i : Fin 3 => fin ((i : ℕ) : ℝ)) 10 false :=
  C44_log_linear_agree (by norm_num) _ fun _ => Nat.cast_nonneg _

/-- relative variance is non-negative when no more injections are found than were made -/
theorem relVar_nonneg {M n : ℕ} (hMn : M ≤ n) (w : Fin M → ℝ) (hw : ∀ i, 0 ≤ w i) (hp : ∃ i, 0 < w i) : 0 ≤ relVar w n := by
  obtain ⟨h1, h2, _⟩ := kish_bounds w hw hp
  obtain ⟨hS, hQ⟩ := sum_pos_of hw hp
  have hk : 0 < kish w := by linarith
  have : (∑ i, w i ^ 2) / (∑ i, w i) ^ 2 = 1 / kish w := by rw [kish, one_div_div]
  rw [relVar, this]
  exact sub_nonneg.2 (one_div_le_one_div_of_le hk (h2.trans (by exact_mod_cast hMn)))

/-- explicit values of the detection efficiency outputs -/
theorem detection_efficiency_value {M n : ℕ} (hMn : M ≤ n) (w : Fin M → ℝ) (hw : ∀ i, 0 ≤ w i) (hp : ∃ i, 0 < w i)
    (lg : Bool) :
    detection_efficiency (fun i => encode lg (w i)) n lg
      = (fin (Real.log ((∑ i, w i) / n)), if relVar w n = 0 then pinf else fin (-Real.log (relVar w n)),
         fin (relVar w n - 1 / n)) := by
  obtain ⟨hS, hQ⟩ := sum_pos_of hw hp
  have hn : 0 < n := (card_pos_of hp).trans_le hMn
  have hnr : (0 : ℝ) < n := by exact_mod_cast hn
  have hrv := relVar_nonneg hMn w hw hp
  have hmu : 0 < (∑ i, w i) / n := div_pos hS hnr
  rw [detection_efficiency_encode hn w hw]
  have hvar : (∑ i, sq (fin (w i))) / fin ((n : ℝ) ^ 2) - sq ((∑ i, fin (w i)) / fin n) / fin n
      = fin (((∑ i, w i) / n) ^ 2 * relVar w n) := by
    simp only [sq_fin, sum_fin, ← pow_two]
    rw [div_fin (pow_pos hnr 2).ne', div_fin hnr.ne', sq_fin, div_fin hnr.ne', sub_fin]
    refine congrArg fin ?_
    unfold relVar
    field_simp
  have hl : F.log ((∑ i, fin (w i)) / fin n) = fin (Real.log ((∑ i, w i) / n)) := by
    rw [sum_fin, div_fin hnr.ne', log_fin hmu]
  unfold detection_efficiency
  simp only [Bool.false_eq_true, if_false, hvar, hl]
  rcases hrv.eq_or_lt with h | h
  · rw [← h]
    simp [div_fin hnr.ne']
  · rw [log_fin (mul_pos (pow_pos hmu 2) h), if_neg h.ne', Real.log_mul (pow_pos hmu 2).ne' h.ne', Real.log_pow]
    have : (2 : F) * fin (Real.log ((∑ i, w i) / n)) - fin (((2 : ℕ) : ℝ) * Real.log ((∑ i, w i) / n) + Real.log (relVar w n))
        = fin (-Real.log (relVar w n)) := by
      rw [ofNat_def, mul_fin, sub_fin]; refine congrArg fin ?_; push_cast; ring
    simp only [this]
    rw [exp_fin, Real.exp_neg, Real.exp_log h, one_def, div_fin (inv_pos.2 h).ne', div_fin hnr.ne', sub_fin, one_div, inv_inv]

/-- C42: multiplying all injection weights by `c > 0` shifts the log efficiency by `log c` and leaves the effective
sample size and the variance unchanged. -/
theorem C42_rescale_injections {M n : ℕ} (hMn : M ≤ n) (w : Fin M → ℝ) (hw : ∀ i, 0 ≤ w i) (hp : ∃ i, 0 < w i)
    {c : ℝ} (hc : 0 < c) (lg : Bool) :
    let old := detection_efficiency (fun i => encode lg (w i)) n lg
    let new := detection_efficiency (fun i => encode lg (c * w i)) n lg
    new.1 = old.1 + fin (Real.log c) ∧ new.2 = old.2 := by
  obtain ⟨hS, hQ⟩ := sum_pos_of hw hp
  have hnr : (0 : ℝ) < n := by exact_mod_cast (card_pos_of hp).trans_le hMn
  have hr : relVar (fun i => c * w i) n = relVar w n := by
    unfold relVar
    simp only [mul_pow, ← Finset.mul_sum]
    rw [mul_div_mul_left _ _ (pow_pos hc 2).ne']
  simp only [detection_efficiency_value hMn w hw hp, detection_efficiency_value hMn (fun i => c * w i)
    (fun i => mul_nonneg hc.le (hw i)) (hp.imp fun i hi => mul_pos hc hi), hr]
  refine ⟨?_, trivial⟩
  rw [← Finset.mul_sum, mul_div_assoc, Real.log_mul hc.ne' (div_pos hS hnr).ne', add_fin, add_comm]

example : ∃ w : Fin 3 → ℝ, (∀ i, 0 ≤ w i) ∧ (∃ i, 0 < w i) ∧ w 0 = 0 :=
  ⟨fun i => (i : ℕ), fun _ => Nat.cast_nonneg _, ⟨1, by simp⟩, by simp⟩

/-! ### C43 -/

/-- C43 (what holds): the efficiency is `∑ w / Ninj`, and the effective sample size is the inverse of the relative Monte
Carlo variance `∑ w² / (∑ w)² - 1/Ninj ≥ 0` (it is `+inf` when that variance is zero).  Missing from the full claim:
the *returned* variance is not that number, see `C43_variance_fails`. -/
theorem C43_neff_partial {M n : ℕ} (hMn : M ≤ n) (w : Fin M → ℝ) (hw : ∀ i, 0 ≤ w i) (hp : ∃ i, 0 < w i) (lg : Bool) :
    exp (detection_efficiency (fun i => encode lg (w i)) n lg).1 = fin ((∑ i, w i) / n) ∧
    1 / exp (detection_efficiency (fun i => encode lg (w i)) n lg).2.1
      = fin ((∑ i, w i ^ 2) / (∑ i, w i) ^ 2 - 1 / n) ∧
    0 ≤ (∑ i, w i ^ 2) / (∑ i, w i) ^ 2 - 1 / n := by
  obtain ⟨hS, hQ⟩ := sum_pos_of hw hp
  have hnr : (0 : ℝ) < n := by exact_mod_cast (card_pos_of hp).trans_le hMn
  have hrv := relVar_nonneg hMn w hw hp
  rw [detection_efficiency_value hMn w hw hp]
  refine ⟨?_, ?_, hrv⟩
  · rw [exp_fin, Real.exp_log (div_pos hS hnr)]
  · change 1 / exp (if relVar w n = 0 then pinf else fin (-Real.log (relVar w n))) = fin (relVar w n)
    rcases hrv.eq_or_lt with h | h
    · rw [← h]; simp
    · rw [if_neg h.ne', exp_fin, Real.exp_neg, Real.exp_log h, one_def, div_fin (inv_pos.2 h).ne', one_div, inv_inv]

/-- C43: the returned variance subtracts `1/Ninj` a second time: for all weights it is `∑ w² / (∑ w)² - 2/Ninj`. -/
theorem C43_variance_is_double_subtracted {M n : ℕ} (hMn : M ≤ n) (w : Fin M → ℝ) (hw : ∀ i, 0 ≤ w i)
    (hp : ∃ i, 0 < w i) (lg : Bool) :
    (detection_efficiency (fun i => encode lg (w i)) n lg).2.2
      = fin ((∑ i, w i ^ 2) / (∑ i, w i) ^ 2 - 2 / n) := by
  rw [detection_efficiency_value hMn w hw hp]
  refine congrArg fin ?_
  unfold relVar; ring

/-- C43 fails: for no weights is the returned variance the relative Monte Carlo variance, and for equal weights with more
than half of the injections found it is negative. -/
theorem C43_variance_fails {M n : ℕ} (hMn : M ≤ n) (w : Fin M → ℝ) (hw : ∀ i, 0 ≤ w i) (hp : ∃ i, 0 < w i) (lg : Bool) :
    (detection_efficiency (fun i => encode lg (w i)) n lg).2.2 ≠ fin ((∑ i, w i ^ 2) / (∑ i, w i) ^ 2 - 1 / n) ∧
    ((∀ i j, w i = w j) → n < 2 * M →
      ∃ v : ℝ, (detection_efficiency (fun i => encode lg (w i)) n lg).2.2 = fin v ∧ v < 0) := by
  have hM := card_pos_of hp
  have hMr : (0 : ℝ) < M := by exact_mod_cast hM
  have hnr : (0 : ℝ) < n := by exact_mod_cast hM.trans_le hMn
  rw [C43_variance_is_double_subtracted hMn w hw hp]
  constructor
  · rw [Ne, fin_inj]
    intro h
    have : (1 : ℝ) / n = 0 := by
      have h2 : (2 : ℝ) / n = 1 / n + 1 / n := by ring
      rw [h2] at h; linarith
    exact (one_div_pos.2 hnr).ne' this
  · intro heq h2
    refine ⟨_, rfl, ?_⟩
    have hk := (kish_bounds w hw hp).2.2.2 heq
    have : (∑ i, w i ^ 2) / (∑ i, w i) ^ 2 = 1 / kish w := by rw [kish, one_div_div]
    rw [this, hk, sub_neg, div_lt_div_iff₀ hMr hnr]
    have : (n : ℝ) < 2 * M := by exact_mod_cast h2
    linarith

example : ∃ v : ℝ, (detection_efficiency (fun _ : Fin 3 => encode true 1) 4 true).2.2 = fin v ∧ v < 0 :=
  (C43_variance_fails (by norm_num) (fun _ : Fin 3 => (1 : ℝ)) (by simp) ⟨0, by simp⟩ true).2 (by simp) (by norm_num)

end GW
end
