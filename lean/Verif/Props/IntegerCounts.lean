import Verif.Model.IntegerCounts
import Verif.Props.Likelihood

/-!
# C132: the number of injections may be given as the integer it is
-/

open Finset
noncomputable section
open Classical
namespace GW
open F

/-! ### 32-bit integers -/

theorem int32_of_lt {z : ℤ} (h0 : 0 ≤ z) (h : z < 2 ^ 31) : int32 z = z := by
  unfold int32
  rw [Int.bmod_eq_of_le] <;> omega

theorem int32_lt (z : ℤ) : int32 z < 2 ^ 31 := by
  unfold int32
  have := Int.bmod_lt (x := z) (m := 2 ^ 32) (by norm_num)
  norm_num at this ⊢
  omega

theorem int32_lt_real (z : ℤ) : ((int32 z : ℤ) : ℝ) < 2147483648 := by
  have := int32_lt z
  norm_num at this
  exact_mod_cast this

theorem lt_sq_of {n s : ℝ} (h1 : s < 2147483648) (h2 : 46341 ≤ n) : s < n ^ 2 := by nlinarith

theorem sub_lt_mul_sub {q t : ℝ} (hq : 0 < q) (ht : 1 < t) (c : ℝ) : q - c < q * t - c := by nlinarith

theorem two_le_of {M n s : ℝ} (hM : 0 < M) (hs : 0 < s) (h : s < 2147483648) (hMn : M * 4294967296 ≤ n ^ 2) : 2 ≤ 1 / M * (n ^ 2 / s) := by
  rw [div_mul_div_comm, le_div_iff₀ (mul_pos hM hs)]
  nlinarith

/-! ### the efficiency -/

theorem detection_efficiencyInt_of {M : ℕ} (w : Fin M → F) (n : ℕ) (lg : Bool) (h : int32 ((n : ℤ) ^ 2) = (n : ℤ) ^ 2) :
    detection_efficiencyInt w n lg = detection_efficiency w n lg := by
  unfold detection_efficiencyInt detection_efficiency
  rw [h]
  push_cast
  rfl

theorem detection_efficiencyInt_encode {M n : ℕ} (hn : 0 < n) (w : Fin M → ℝ) (hw : ∀ i, 0 ≤ w i) (lg : Bool) :
    detection_efficiencyInt (fun i => encode lg (w i)) n lg = detection_efficiencyInt (fun i => fin (w i)) n false := by
  cases lg with
  | false => rfl
  | true =>
    have hnr : (0 : ℝ) < n := by exact_mod_cast hn
    have hS : 0 ≤ ∑ i, w i := Finset.sum_nonneg fun i _ => hw i
    have e1 : logsumexp (fun i => encode true (w i)) = F.log (fin (∑ i, w i)) := logsumexp_log w hw
    have hmu : F.log (fin (∑ i, w i)) - F.log (fin n) = F.log ((∑ i, fin (w i)) / fin n) := by
      rw [sum_fin, div_fin hnr.ne', log_fin hnr]
      rcases log_fin_nonneg hS with ⟨h0, e⟩ | ⟨h0, e⟩
      · rw [e, h0]; simp
      · rw [e, log_fin (div_pos h0 hnr), Real.log_div h0.ne' hnr.ne']; simp
    have hex : exp (F.log ((∑ i, fin (w i)) / fin n)) = (∑ i, fin (w i)) / fin n := by
      rw [sum_fin, div_fin hnr.ne', exp_log_nonneg (div_nonneg hS hnr.le)]
    have hsq : ∀ i, sq (exp (encode true (w i))) = sq (fin (w i)) := fun i => by
      change sq (exp (F.log (fin (w i)))) = _
      rw [exp_log_nonneg (hw i)]
    unfold detection_efficiencyInt
    simp only [if_true, e1, hmu, hex, hsq, Bool.false_eq_true, if_false]

/-- the relative variance as it comes out when the square of the number of injections is stored as `s` -/
def relVarInt {M : ℕ} (w : Fin M → ℝ) (n : ℕ) (s : ℝ) : ℝ := (∑ i, w i ^ 2) / (∑ i, w i) ^ 2 * ((n : ℝ) ^ 2 / s) - 1 / n

theorem detection_efficiencyInt_value {M n : ℕ} (hn : 0 < n) (w : Fin M → ℝ) (hw : ∀ i, 0 ≤ w i) (hp : ∃ i, 0 < w i) (lg : Bool) :
    (detection_efficiencyInt (fun i => encode lg (w i)) n lg).1 = fin (Real.log ((∑ i, w i) / n)) ∧
    (int32 ((n : ℤ) ^ 2) = 0 → (detection_efficiencyInt (fun i => encode lg (w i)) n lg).2 = (ninf, pinf)) ∧
    (int32 ((n : ℤ) ^ 2) < 0 → (detection_efficiencyInt (fun i => encode lg (w i)) n lg).2 = (nan, nan)) ∧
    (0 < int32 ((n : ℤ) ^ 2) → 0 < relVarInt w n (int32 ((n : ℤ) ^ 2)) → (detection_efficiencyInt (fun i => encode lg (w i)) n lg).2 =
      (fin (-Real.log (relVarInt w n (int32 ((n : ℤ) ^ 2)))), fin (relVarInt w n (int32 ((n : ℤ) ^ 2)) - 1 / n))) := by
  obtain ⟨hS, hQ⟩ := sum_pos_of hw hp
  have hnr : (0 : ℝ) < n := by exact_mod_cast hn
  have hmu : 0 < (∑ i, w i) / n := div_pos hS hnr
  rw [detection_efficiencyInt_encode hn w hw]
  have hl : F.log ((∑ i, fin (w i)) / fin n) = fin (Real.log ((∑ i, w i) / n)) := by
    rw [sum_fin, div_fin hnr.ne', log_fin hmu]
  have hq : ∑ i, sq (fin (w i)) = fin (∑ i, w i ^ 2) := by simp only [sq_fin, sum_fin, ← pow_two]
  have hm : sq ((∑ i, fin (w i)) / fin n) / fin n = fin (((∑ i, w i) / n) ^ 2 / n) := by
    rw [sum_fin, div_fin hnr.ne', sq_fin, div_fin hnr.ne', pow_two]
  refine ⟨?_, fun h => ?_, fun h => ?_, fun h hv => ?_⟩
  · unfold detection_efficiencyInt
    simp only [Bool.false_eq_true, if_false, hl]
  · have e : (fin (∑ i, w i ^ 2) / fin ((int32 ((n : ℤ) ^ 2) : ℤ) : ℝ) - fin (((∑ i, w i) / n) ^ 2 / n) : F) = pinf := by
      rw [h, Int.cast_zero, div_fin_zero, infOfSign, if_pos hQ]; rfl
    have e2 : (2 : F) * fin (Real.log ((∑ i, w i) / n)) - pinf = ninf := by rw [ofNat_def, mul_fin]; rfl
    have e3 : (1 : F) / fin 0 - 1 / fin n = pinf := by rw [one_def, div_fin_zero, infOfSign, if_pos one_pos, div_fin hnr.ne']; rfl
    unfold detection_efficiencyInt
    simp only [Bool.false_eq_true, if_false, hl, hq, hm, e, log_pinf, e2, exp_ninf, e3]
  · have hs : ((int32 ((n : ℤ) ^ 2) : ℤ) : ℝ) < 0 := by exact_mod_cast h
    have hneg : (∑ i, w i ^ 2) / ((int32 ((n : ℤ) ^ 2) : ℤ) : ℝ) - ((∑ i, w i) / n) ^ 2 / n < 0 := by
      have := div_neg_of_pos_of_neg hQ hs
      have : 0 < ((∑ i, w i) / n) ^ 2 / n := by positivity
      linarith
    have e : F.log (fin (∑ i, w i ^ 2) / fin ((int32 ((n : ℤ) ^ 2) : ℤ) : ℝ) - fin (((∑ i, w i) / n) ^ 2 / n)) = nan := by
      rw [div_fin hs.ne, sub_fin, log_fin_neg hneg]
    have e2 : (2 : F) * fin (Real.log ((∑ i, w i) / n)) - nan = nan := by rw [ofNat_def, mul_fin]; rfl
    have e3 : (1 : F) / nan - 1 / fin n = nan := by rw [one_def, div_fin hnr.ne']; rfl
    unfold detection_efficiencyInt
    simp only [Bool.false_eq_true, if_false, hl, hq, hm, e, e2, exp_nan, e3]
  · have hs : (0 : ℝ) < ((int32 ((n : ℤ) ^ 2) : ℤ) : ℝ) := by exact_mod_cast h
    have e : (∑ i, w i ^ 2) / ((int32 ((n : ℤ) ^ 2) : ℤ) : ℝ) - ((∑ i, w i) / n) ^ 2 / n = ((∑ i, w i) / n) ^ 2 * relVarInt w n (int32 ((n : ℤ) ^ 2) : ℤ) := by
      unfold relVarInt
      field_simp
    have e' : F.log (fin (∑ i, w i ^ 2) / fin ((int32 ((n : ℤ) ^ 2) : ℤ) : ℝ) - fin (((∑ i, w i) / n) ^ 2 / n)) =
        fin (2 * Real.log ((∑ i, w i) / n) + Real.log (relVarInt w n (int32 ((n : ℤ) ^ 2) : ℤ))) := by
      rw [div_fin hs.ne', sub_fin, e, log_fin (mul_pos (pow_pos hmu 2) hv), Real.log_mul (pow_pos hmu 2).ne' hv.ne', Real.log_pow]
      norm_num
    have e2 : (2 : F) * fin (Real.log ((∑ i, w i) / n)) - fin (2 * Real.log ((∑ i, w i) / n) + Real.log (relVarInt w n (int32 ((n : ℤ) ^ 2) : ℤ))) =
        fin (-Real.log (relVarInt w n (int32 ((n : ℤ) ^ 2) : ℤ))) := by
      rw [ofNat_def, mul_fin, sub_fin]; refine congrArg fin ?_; push_cast; ring
    unfold detection_efficiencyInt
    simp only [Bool.false_eq_true, if_false, hl, hq, hm, e', e2]
    rw [exp_fin, Real.exp_neg, Real.exp_log hv, one_def, div_fin (inv_pos.2 hv).ne', div_fin hnr.ne', sub_fin, one_div, inv_inv]

/-! ### C132 -/

/-- **C132** (partial): up to 46340 injections it does not matter whether their number is given as an integer or as a float: same recorded sites, same factor, same
result, for all weights.  Missing: larger numbers, for which the claim is false, see the theorems below. -/
theorem C132_small_partial {E N M : ℕ} (fl : Flags) (pe : Fin E → Fin N → F) (inj : Fin M → F) (total_inj Nobs : ℕ) (h : total_inj ≤ 46340)
    (Tobs : F) (hv : Option F) (unscaled : F) :
    hierarchical_likelihoodInt fl pe inj total_inj Nobs Tobs hv unscaled = hierarchical_likelihood fl (.single pe) inj total_inj Nobs Tobs hv unscaled none := by
  have hi : int32 ((total_inj : ℤ) ^ 2) = (total_inj : ℤ) ^ 2 := by
    refine int32_of_lt (by positivity) ?_
    have : (total_inj : ℤ) ≤ 46340 := by exact_mod_cast h
    nlinarith
  unfold hierarchical_likelihoodInt hierarchical_likelihood
  rw [detection_efficiencyInt_of inj total_inj fl.log hi]
  rfl

/-- **C132** is false of larger numbers: from 46341 injections on, the effective number that is returned is not the one returned for the same number given as a
float, whatever the weights. -/
theorem C132_effective_number_fails {M n : ℕ} (hn : 46341 ≤ n) (hMn : M ≤ n) (w : Fin M → ℝ) (hw : ∀ i, 0 ≤ w i) (hp : ∃ i, 0 < w i) (lg : Bool) :
    (detection_efficiencyInt (fun i => encode lg (w i)) n lg).2.1 ≠ (detection_efficiency (fun i => encode lg (w i)) n lg).2.1 := by
  have hn0 : 0 < n := by omega
  have hnr : (0 : ℝ) < n := by exact_mod_cast hn0
  obtain ⟨hS, hQ⟩ := sum_pos_of hw hp
  obtain ⟨-, v0, v1, v2⟩ := detection_efficiencyInt_value hn0 w hw hp lg
  have hrv := relVar_nonneg hMn w hw hp
  rw [detection_efficiency_value hMn w hw hp lg]
  rcases lt_trichotomy (int32 ((n : ℤ) ^ 2)) 0 with h | h | h
  · rw [v1 h]
    dsimp only
    split_ifs <;> simp
  · rw [v0 h]
    dsimp only
    split_ifs <;> simp
  · have hs : (0 : ℝ) < ((int32 ((n : ℤ) ^ 2) : ℤ) : ℝ) := by exact_mod_cast h
    have hlt : ((int32 ((n : ℤ) ^ 2) : ℤ) : ℝ) < (n : ℝ) ^ 2 := by
      exact lt_sq_of (int32_lt_real _) (by exact_mod_cast hn)
    have hgt : relVar w n < relVarInt w n (int32 ((n : ℤ) ^ 2) : ℤ) := by
      unfold relVar relVarInt
      have h1 : 0 < (∑ i, w i ^ 2) / (∑ i, w i) ^ 2 := div_pos hQ (pow_pos hS 2)
      exact sub_lt_mul_sub h1 ((one_lt_div hs).2 hlt) _
    rw [v2 h (hrv.trans_lt hgt)]
    dsimp only
    split_ifs with hz
    · simp
    · intro he
      rw [fin_inj, neg_inj] at he
      exact hgt.ne' (Real.log_injOn_pos (hrv.trans_lt hgt) (lt_of_le_of_ne hrv (Ne.symm hz)) he)

/-- with many injections and not too many of them found, the returned effective number is NaN, zero or at most 1 -/
theorem int_poor {M n : ℕ} (hM : M * 2 ^ 32 ≤ n ^ 2) (w : Fin M → ℝ) (hw : ∀ i, 0 ≤ w i) (hp : ∃ i, 0 < w i) (lg : Bool) :
    (detection_efficiencyInt (fun i => encode lg (w i)) n lg).1 = fin (Real.log ((∑ i, w i) / n)) ∧
    ((detection_efficiencyInt (fun i => encode lg (w i)) n lg).2 = (ninf, pinf) ∨ (detection_efficiencyInt (fun i => encode lg (w i)) n lg).2 = (nan, nan) ∨
    ∃ r : ℝ, 1 < r - 1 / n ∧ (detection_efficiencyInt (fun i => encode lg (w i)) n lg).2 = (fin (-Real.log r), fin (r - 1 / n))) := by
  have hM0 : 0 < M := card_pos_of hp
  have hn2 : 65536 ≤ n := by
    by_contra hc
    have : n ^ 2 ≤ 65535 ^ 2 := Nat.pow_le_pow_left (by omega) 2
    omega
  have hn0 : 0 < n := by omega
  have hnr : (65536 : ℝ) ≤ n := by exact_mod_cast hn2
  obtain ⟨hS, hQ⟩ := sum_pos_of hw hp
  obtain ⟨v, v0, v1, v2⟩ := detection_efficiencyInt_value hn0 w hw hp lg
  refine ⟨v, ?_⟩
  rcases lt_trichotomy (int32 ((n : ℤ) ^ 2)) 0 with h | h | h
  · exact Or.inr (Or.inl (v1 h))
  · exact Or.inl (v0 h)
  · have hs : (0 : ℝ) < ((int32 ((n : ℤ) ^ 2) : ℤ) : ℝ) := by exact_mod_cast h
    have hlt : ((int32 ((n : ℤ) ^ 2) : ℤ) : ℝ) < 2147483648 := int32_lt_real _
    have hMr : (0 : ℝ) < M := by exact_mod_cast hM0
    have hMn : (M : ℝ) * 2 ^ 32 ≤ (n : ℝ) ^ 2 := by exact_mod_cast hM
    have hk : 1 / (M : ℝ) ≤ (∑ i, w i ^ 2) / (∑ i, w i) ^ 2 := by
      have := (kish_bounds w hw hp).2.1
      unfold kish at this
      rw [div_le_iff₀ hQ] at this
      rw [div_le_div_iff₀ hMr (pow_pos hS 2)]
      linarith
    have h1 : 2 ≤ 1 / (M : ℝ) * ((n : ℝ) ^ 2 / ((int32 ((n : ℤ) ^ 2) : ℤ) : ℝ)) := two_le_of hMr hs hlt (by norm_num at hMn; exact hMn)
    have h2 : 2 ≤ (∑ i, w i ^ 2) / (∑ i, w i) ^ 2 * ((n : ℝ) ^ 2 / ((int32 ((n : ℤ) ^ 2) : ℤ) : ℝ)) :=
      h1.trans (mul_le_mul_of_nonneg_right hk (by positivity))
    have h3 : 1 / (n : ℝ) ≤ 1 / 65536 := one_div_le_one_div_of_le (by norm_num) hnr
    have h4 : 1 < relVarInt w n (int32 ((n : ℤ) ^ 2) : ℤ) - 1 / n := by
      unfold relVarInt
      norm_num at h3 ⊢
      linarith
    have h5 : (0 : ℝ) ≤ 1 / n := by positivity
    exact Or.inr (Or.inr ⟨_, h4, v2 h (by linarith)⟩)

theorem hlInt_factors {E N M : ℕ} (fl : Flags) (pe : Fin E → Fin N → F) (inj : Fin M → F) (total_inj Nobs : ℕ) (Tobs : F) (hv : Option F) (unscaled : F)
    (hfl : fl.ok) (hhv : fl.reconstruct_rate = true → hv ≠ none) :
    let b := per_event_log_bayes_factors pe fl.log
    let d := detection_efficiencyInt inj total_inj fl.log
    let sel := selectionFactor fl Nobs d.1 d.2.1
    factors (hierarchical_likelihoodInt fl pe inj total_inj Nobs Tobs hv unscaled).1 =
      [varianceCut fl (fin ((Nobs : ℝ) ^ 2) * d.2.2 + ∑ e, b.2.2 e) (neffCut fl Nobs b.2.1 (guardedLogL sel (∑ e, b.1 e)))] ∧
    Site.det "selection_factor" [sel] ∈ (hierarchical_likelihoodInt fl pe inj total_inj Nobs Tobs hv unscaled).1 := by
  intro b d sel
  unfold hierarchical_likelihoodInt
  rw [if_neg hfl]
  have hr : ∃ rp, ratePart fl hv Tobs unscaled d.1 = .ok rp ∧ factors rp.1 = [] := by
    unfold ratePart
    cases hb : fl.reconstruct_rate with
    | false => exact ⟨_, rfl, rfl⟩
    | true =>
      cases hv with
      | none => exact absurd rfl (hhv hb)
      | some v => exact ⟨_, rfl, rfl⟩
  obtain ⟨rp, hrp, hf⟩ := hr
  simp only [d] at hrp
  simp only [hrp]
  have h1 : ∀ v, factors (if fl.min_neff_cut = true then [Site.det "neff_less_Nobs" [v]] else []) = [] := by intro v; split <;> rfl
  have h2 : ∀ v, factors (if fl.max_variance_cut = true then [Site.det "variance_less_1" [v]] else []) = [] := by intro v; split <;> rfl
  refine ⟨?_, by simp [sel, d]⟩
  simp only [factors_append, hf, h1, h2]
  rfl

/-- **C132** is false of larger numbers: with `min_neff_cut`, `n` injections of which at most `n² / 2³²` are found, the selection factor is the large negative
constant and the contribution to the log density is that constant, plus the Bayes factors if every event has enough effective samples: at every hyper-parameter
and whatever the injections say. -/
theorem C132_selection_cut_fails {E N M n : ℕ} (hM : M * 2 ^ 32 ≤ n ^ 2) (fl : Flags) (hcut : fl.min_neff_cut = true) (hfl : fl.ok) (x : Fin E → Fin N → ℝ)
    (hx : ∀ e i, 0 ≤ x e i) (hxp : ∀ e, ∃ i, 0 < x e i) (w : Fin M → ℝ) (hw : ∀ i, 0 ≤ w i) (hp : ∃ i, 0 < w i) (Nobs : ℕ) (hE : 0 < E) (hN : 1 ≤ Nobs)
    (hN' : (Nobs : ℝ) < 2 ^ 127) (Tobs : F) (hv : Option F) (hhv : fl.reconstruct_rate = true → hv ≠ none) (unscaled : F) :
    let run := hierarchical_likelihoodInt fl (fun e i => encode fl.log (x e i)) (fun i => encode fl.log (w i)) n Nobs Tobs hv unscaled
    Site.det "selection_factor" [negBig] ∈ run.1 ∧
    factors run.1 = [if ∃ e, kish (x e) ≤ Nobs then negBig else fin (-BIG + ∑ e, Real.log (mean (x e)))] := by
  intro run
  obtain ⟨f1, f2⟩ := hlInt_factors fl (fun e i => encode fl.log (x e i)) (fun i => encode fl.log (w i)) n Nobs Tobs hv unscaled hfl hhv
  have hNr : (1 : ℝ) ≤ Nobs := by exact_mod_cast hN
  have hlog : 0 < Real.log (4 * Nobs) := Real.log_pos (by linarith)
  have hsel : selectionFactor fl Nobs (detection_efficiencyInt (fun i => encode fl.log (w i)) n fl.log).1
      (detection_efficiencyInt (fun i => encode fl.log (w i)) n fl.log).2.1 = negBig := by
    have hge : ¬ ge (detection_efficiencyInt (fun i => encode fl.log (w i)) n fl.log).2.1 (log (fin (4 * Nobs))) := by
      rw [log_fin (by linarith)]
      rcases (int_poor hM w hw hp fl.log).2 with h | h | ⟨r, hr, h⟩
      · rw [h]; simp [ge]
      · rw [h]; simp [ge]
      · rw [h, ge_fin, not_le]
        have h5 : (0 : ℝ) ≤ 1 / n := by positivity
        have : 0 < Real.log r := Real.log_pos (by linarith)
        linarith
    unfold selectionFactor
    simp only [hcut, if_true]
    rw [if_neg hge]
    simp [negBig]
  rw [hsel] at f1 f2
  refine ⟨f2, ?_⟩
  have hmv : fl.max_variance_cut = false := by
    cases h : fl.max_variance_cut with
    | false => rfl
    | true => exact absurd ⟨h, Or.inr hcut⟩ hfl
  refine f1.trans ?_
  have hb := C40_value x hx hxp fl.log
  have hiff := neffCut_iff (fun e i => encode fl.log (x e i)) fl.log Nobs hE hN hN'
  unfold PoorEvent at hiff
  unfold varianceCut neffCut
  simp only [hmv, hcut, Bool.false_eq_true, if_false, if_true, hiff]
  simp only [hb, isnan_fin, exp_fin, le_fin, false_or]
  have hk : ∀ e, Real.exp (Real.log (kish (x e))) = kish (x e) := fun e =>
    Real.exp_log (by have := (kish_bounds (x e) (hx e) (hxp e)).1; linarith)
  simp only [hk]
  split_ifs
  · rfl
  · simp [guardedLogL, negBig, sum_fin]

/-- **C132** is false of larger numbers: with `max_variance_cut` the contribution is the large negative constant, at every hyper-parameter. -/
theorem C132_variance_cut_fails {E N M n : ℕ} (hM : M * 2 ^ 32 ≤ n ^ 2) (fl : Flags) (hcut : fl.max_variance_cut = true) (hfl : fl.ok) (x : Fin E → Fin N → ℝ)
    (hx : ∀ e i, 0 ≤ x e i) (hxp : ∀ e, ∃ i, 0 < x e i) (w : Fin M → ℝ) (hw : ∀ i, 0 ≤ w i) (hp : ∃ i, 0 < w i) (Nobs : ℕ) (hN : 1 ≤ Nobs)
    (Tobs : F) (hv : Option F) (hhv : fl.reconstruct_rate = true → hv ≠ none) (unscaled : F) :
    factors (hierarchical_likelihoodInt fl (fun e i => encode fl.log (x e i)) (fun i => encode fl.log (w i)) n Nobs Tobs hv unscaled).1 = [negBig] := by
  obtain ⟨f1, -⟩ := hlInt_factors fl (fun e i => encode fl.log (x e i)) (fun i => encode fl.log (w i)) n Nobs Tobs hv unscaled hfl hhv
  refine f1.trans ?_
  have hNr : (1 : ℝ) ≤ Nobs := by exact_mod_cast hN
  have hb := C40_value x hx hxp fl.log
  have hsum : ∑ e, (per_event_log_bayes_factors (fun e i => encode fl.log (x e i)) fl.log).2.2 e = fin (∑ e, (1 / kish (x e) - 1 / N)) := by
    simp only [hb, sum_fin]
  have hnn : 0 ≤ ∑ e, (1 / kish (x e) - 1 / (N : ℝ)) := Finset.sum_nonneg fun e _ => by
    obtain ⟨k1, k2, _⟩ := kish_bounds (x e) (hx e) (hxp e)
    exact sub_nonneg.2 (one_div_le_one_div_of_le (by linarith) k2)
  have hle : ¬ le (fin ((Nobs : ℝ) ^ 2) * (detection_efficiencyInt (fun i => encode fl.log (w i)) n fl.log).2.2 +
      ∑ e, (per_event_log_bayes_factors (fun e i => encode fl.log (x e i)) fl.log).2.2 e) 1 := by
    rw [hsum, one_def]
    rcases (int_poor hM w hw hp fl.log).2 with h | h | ⟨r, hr, h⟩
    · rw [h]
      dsimp only
      rw [fin_mul_pinf, infOfSign_pos (by positivity)]
      exact fun hc => hc
    · rw [h]
      exact fun hc => hc
    · rw [h]
      dsimp only
      rw [mul_fin, add_fin, le_fin, not_le]
      have : (1 : ℝ) ≤ (Nobs : ℝ) ^ 2 := one_le_pow₀ hNr
      nlinarith
  unfold varianceCut
  simp only [hcut, if_true]
  rw [if_neg hle]
  rfl

/-- a hundred million injections, a hundred thousand of them found: within the hypotheses -/
example : 100000 * 2 ^ 32 ≤ (100000000 : ℕ) ^ 2 ∧ ∃ w : Fin 100000 → ℝ, (∀ i, 0 ≤ w i) ∧ ∃ i, 0 < w i :=
  ⟨by norm_num, fun i => (i : ℕ), fun i => Nat.cast_nonneg _, ⟨1, by norm_num⟩, by norm_num⟩

/-- 65536 injections: the stored square is 0, and the effective number comes out as 0 although ten equal weights are worth ten -/
example : int32 (((65536 : ℕ) : ℤ) ^ 2) = 0 ∧
    (detection_efficiencyInt (fun _ : Fin 10 => encode false 1) 65536 false).2.1 = ninf ∧ 9 < kish (fun _ : Fin 10 => (1 : ℝ)) := by
  have h : int32 (((65536 : ℕ) : ℤ) ^ 2) = 0 := by decide
  refine ⟨h, ?_, by norm_num [kish]⟩
  rw [((detection_efficiencyInt_value (n := 65536) (by norm_num) (fun _ : Fin 10 => (1 : ℝ)) (fun _ => zero_le_one) ⟨0, one_pos⟩ false).2.1 h)]

end GW
end
