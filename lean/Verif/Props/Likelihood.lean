import Verif.Props.Estimators

/-!
# C45–C48: `hierarchical_likelihood`

Observables of a run: the values of its `numpyro.factor` statements, the names of its `numpyro.sample` statements and the
returned rate.
-/

open Finset
noncomputable section
open Classical
namespace GW
open F

/-- values of the `numpyro.factor` statements of a trace, in order -/
def factors (tr : List Site) : List F := tr.filterMap fun s => match s with | .factor _ v => some v | _ => none
/-- names of the `numpyro.sample` statements of a trace, in order -/
def samples (tr : List Site) : List String := tr.filterMap fun s => match s with | .sample n => some n | _ => none
/-- "the large negative constant" `nan_to_num(-inf)` -/
def negBig : F := fin (-BIG)

theorem factors_append (a b : List Site) : factors (a ++ b) = factors a ++ factors b := List.filterMap_append
theorem samples_append (a b : List Site) : samples (a ++ b) = samples a ++ samples b := List.filterMap_append

/-! ### posterior predictive sites are deterministic only -/

/-- only `deterministic` statements -/
def DetOnly (tr : List Site) : Prop := ∀ s ∈ tr, ∃ n v, s = Site.det n v

theorem DetOnly.factors {tr : List Site} (h : DetOnly tr) : GW.factors tr = [] := by
  unfold GW.factors
  rw [List.filterMap_eq_nil_iff]
  intro s hs
  obtain ⟨n, v, rfl⟩ := h s hs
  rfl
theorem DetOnly.samples {tr : List Site} (h : DetOnly tr) : GW.samples tr = [] := by
  unfold GW.samples
  rw [List.filterMap_eq_nil_iff]
  intro s hs
  obtain ⟨n, v, rfl⟩ := h s hs
  rfl
theorem DetOnly.append {a b : List Site} (ha : DetOnly a) (hb : DetOnly b) : DetOnly (a ++ b) := by
  intro s hs
  rcases List.mem_append.1 hs with h | h
  · exact ha s h
  · exact hb s h
theorem DetOnly.nil : DetOnly [] := by intro s hs; simp at hs
theorem DetOnly.single (n : String) (v : List F) : DetOnly [Site.det n v] := by
  intro s hs; exact ⟨n, v, by simpa using hs⟩

theorem ppcEvent_detOnly {E N M : ℕ} (p : PPC E N M) (hE : 0 < E) (hN : 0 < N) (hM : 0 < M) (pw : Fin E → Fin N → F)
    (iw : Fin M → F) (ev : ℕ) : DetOnly (ppcEvent p hE hN hM pw iw ev).1 := by
  have hgen : ∀ (obs pred : ℕ) (l : List String) (acc : List Site × Except PyErr Unit), DetOnly acc.1 →
      DetOnly (l.foldl (ppcNameStep p hE hN hM ev obs pred) acc).1 := by
    intro obs pred l
    induction l with
    | nil => intro acc h; exact h
    | cons x l ih =>
      intro acc h
      rw [List.foldl_cons]
      refine ih _ ?_
      unfold ppcNameStep
      split
      · exact h
      · split
        · exact h
        · simp only
          split
          · exact h.append (DetOnly.single _ _)
          · exact (h.append (DetOnly.single _ _)).append (DetOnly.single _ _)
  refine hgen _ _ _ _ ?_
  unfold ppcCats
  cases p.indv with
  | none => exact DetOnly.nil
  | some l =>
    intro s hs
    simp only [List.mem_mapIdx] at hs
    obtain ⟨i, _, rfl⟩ := hs
    exact ⟨_, _, rfl⟩

theorem ppcRun_detOnly {E N M : ℕ} (log : Bool) (pe : Fin E → Fin N → F) (inj : Fin M → F) (Nobs : ℕ) (p : PPC E N M) :
    DetOnly (ppcRun log pe inj Nobs p).1 := by
  unfold ppcRun
  split
  · exact DetOnly.nil
  split
  · exact DetOnly.nil
  split
  · exact DetOnly.nil
  split
  · exact DetOnly.nil
  simp only
  split
  · rename_i h
    generalize ppcPeWeights _ _ _ _ _ _ _ = pw
    generalize ppcInjWeights _ _ _ _ _ _ _ = iw
    have hgen : ∀ (l : List ℕ) (acc : List Site × Except PyErr Unit), DetOnly acc.1 →
        DetOnly (l.foldl (ppcEventStep p h.1 h.2.1 h.2.2 pw iw) acc).1 := by
      intro l
      induction l with
      | nil => intro acc h; exact h
      | cons x l ih =>
        intro acc h'
        rw [List.foldl_cons]
        refine ih _ ?_
        unfold ppcEventStep
        split
        · exact h'
        · exact h'.append (ppcEvent_detOnly _ _ _ _ _ _ _)
    exact hgen _ _ DetOnly.nil
  · exact DetOnly.nil

theorem ppcOf_detOnly {E N M : ℕ} (log : Bool) (pe : PEWeights E N) (inj : Fin M → F) (Nobs : ℕ) (p : PPC E N M) :
    DetOnly (ppcOf log pe inj Nobs p).1 := by
  cases pe with
  | single w => exact ppcRun_detOnly log w inj Nobs p
  | categorical a b c =>
    simp only [ppcOf, ppcRunCategorical]
    split
    · exact DetOnly.nil
    split
    · exact DetOnly.nil
    split
    · exact DetOnly.nil
    split
    · exact DetOnly.nil
    split <;> exact DetOnly.nil

/-! ### normal form of a run -/

/-- the flags are compatible -/
def Flags.ok (fl : Flags) : Prop := ¬ (fl.max_variance_cut = true ∧ (fl.marginalize_selection = true ∨ fl.min_neff_cut = true))

/-- the value a completed run contributes to the log density -/
def likelihoodValue {E N M : ℕ} (fl : Flags) (pe : Fin E → Fin N → F) (inj : Fin M → F) (total_inj Nobs : ℕ) : F :=
  let b := per_event_log_bayes_factors pe fl.log
  let d := detection_efficiency inj total_inj fl.log
  varianceCut fl (fin ((Nobs : ℝ) ^ 2) * d.2.2 + ∑ e, b.2.2 e)
    (neffCut fl Nobs b.2.1 (guardedLogL (selectionFactor fl Nobs d.1 d.2.1) (∑ e, b.1 e)))

theorem factors_sites {E N : ℕ} (pe : PEWeights E N) : factors pe.sites = [] := by cases pe <;> rfl

theorem hl_factors_samples {E N M : ℕ} (fl : Flags) (pe : PEWeights E N) (inj : Fin M → F) (total_inj Nobs : ℕ)
    (Tobs : F) (hv : Option F) (unscaled : F) (ppc : Option (PPC E N M)) (hfl : fl.ok)
    (hhv : fl.reconstruct_rate = true → hv ≠ none) :
    factors (hierarchical_likelihood fl pe inj total_inj Nobs Tobs hv unscaled ppc).1
        = [likelihoodValue fl pe.array inj total_inj Nobs] ∧
    samples (hierarchical_likelihood fl pe inj total_inj Nobs Tobs hv unscaled ppc).1
        = samples pe.sites ++ (if fl.reconstruct_rate then ["unscaled_rate"] else []) := by
  unfold hierarchical_likelihood
  rw [if_neg hfl]
  have hr : ∃ rp, ratePart fl hv Tobs unscaled (detection_efficiency inj total_inj fl.log).1 = .ok rp ∧
      factors rp.1 = [] ∧ samples rp.1 = (if fl.reconstruct_rate then ["unscaled_rate"] else []) := by
    unfold ratePart
    cases hb : fl.reconstruct_rate with
    | false => exact ⟨_, rfl, rfl, rfl⟩
    | true =>
      cases hv with
      | none => exact absurd rfl (hhv hb)
      | some v => exact ⟨_, rfl, rfl, rfl⟩
  obtain ⟨rp, hrp, hf, hs⟩ := hr
  simp only [hrp]
  have h1 : factors (if fl.min_neff_cut = true then [Site.det "neff_less_Nobs" [neffCut fl Nobs
      (per_event_log_bayes_factors pe.array fl.log).2.1 (guardedLogL (selectionFactor fl Nobs
      (detection_efficiency inj total_inj fl.log).1 (detection_efficiency inj total_inj fl.log).2.1)
      (∑ e, (per_event_log_bayes_factors pe.array fl.log).1 e))]] else []) = [] := by split <;> rfl
  have h1' : samples (if fl.min_neff_cut = true then [Site.det "neff_less_Nobs" [neffCut fl Nobs
      (per_event_log_bayes_factors pe.array fl.log).2.1 (guardedLogL (selectionFactor fl Nobs
      (detection_efficiency inj total_inj fl.log).1 (detection_efficiency inj total_inj fl.log).2.1)
      (∑ e, (per_event_log_bayes_factors pe.array fl.log).1 e))]] else []) = [] := by split <;> rfl
  have h2 : ∀ v, factors (if fl.max_variance_cut = true then [Site.det "variance_less_1" [v]] else []) = [] := by
    intro v; split <;> rfl
  have h2' : ∀ v, samples (if fl.max_variance_cut = true then [Site.det "variance_less_1" [v]] else []) = [] := by
    intro v; split <;> rfl
  cases ppc with
  | none =>
    simp only [factors_append, samples_append, factors_sites, hf, hs, h1, h1', h2, h2']
    refine ⟨rfl, ?_⟩
    simp [samples]
  | some p =>
    have hd := ppcOf_detOnly fl.log pe inj Nobs p
    simp only [factors_append, samples_append, factors_sites, hf, hs, h1, h1', h2, h2', hd.factors, hd.samples]
    refine ⟨rfl, ?_⟩
    simp [samples]

/-- a run with incompatible flags, or without a hypervolume when a rate is wanted, executes no factor statement -/
theorem hl_error_factors {E N M : ℕ} (fl : Flags) (pe : PEWeights E N) (inj : Fin M → F) (total_inj Nobs : ℕ)
    (Tobs : F) (hv : Option F) (unscaled : F) (ppc : Option (PPC E N M))
    (h : ¬ fl.ok ∨ (fl.reconstruct_rate = true ∧ hv = none)) :
    factors (hierarchical_likelihood fl pe inj total_inj Nobs Tobs hv unscaled ppc).1 = [] := by
  unfold hierarchical_likelihood
  by_cases hfl : fl.max_variance_cut = true ∧ (fl.marginalize_selection = true ∨ fl.min_neff_cut = true)
  · rw [if_pos hfl]; rfl
  · rw [if_neg hfl]
    rcases h with h | ⟨h, rfl⟩
    · exact absurd hfl h
    · have : ratePart fl none Tobs unscaled (detection_efficiency inj total_inj fl.log).1 = .error .typeError := by
        simp [ratePart, h]
      simp only [this, factors_append, factors_sites]
      rfl

/-! ### C45 -/

theorem guardedLogL_finite (a b : F) : isfinite (guardedLogL a b) := by
  unfold guardedLogL
  simp only
  split
  · exact ⟨_, rfl⟩
  · exact nanToNum_isfinite _

theorem likelihoodValue_finite {E N M : ℕ} (fl : Flags) (pe : Fin E → Fin N → F) (inj : Fin M → F) (total_inj Nobs : ℕ) :
    isfinite (likelihoodValue fl pe inj total_inj Nobs) := by
  unfold likelihoodValue varianceCut neffCut
  simp only
  split_ifs <;> first | exact guardedLogL_finite _ _ | exact ⟨_, rfl⟩

/-- C45: whatever weights are passed — zero, negative, infinite, NaN, any shape, any flags, with or without posterior
predictive check — every number the run adds to the log density is finite; and a run that does not stop with an
exception before reaching it adds exactly one. -/
theorem C45_factor_finite {E N M : ℕ} (fl : Flags) (pe : PEWeights E N) (inj : Fin M → F) (total_inj Nobs : ℕ)
    (Tobs : F) (hv : Option F) (unscaled : F) (ppc : Option (PPC E N M)) :
    (∀ v ∈ factors (hierarchical_likelihood fl pe inj total_inj Nobs Tobs hv unscaled ppc).1, ∃ x : ℝ, v = fin x) ∧
    ((∃ r, (hierarchical_likelihood fl pe inj total_inj Nobs Tobs hv unscaled ppc).2 = .ok r) →
      (factors (hierarchical_likelihood fl pe inj total_inj Nobs Tobs hv unscaled ppc).1).length = 1) := by
  by_cases h : ¬ fl.ok ∨ (fl.reconstruct_rate = true ∧ hv = none)
  · rw [hl_error_factors fl pe inj total_inj Nobs Tobs hv unscaled ppc h]
    refine ⟨by simp, ?_⟩
    rintro ⟨r, hr⟩
    exfalso
    unfold hierarchical_likelihood at hr
    by_cases hfl : fl.max_variance_cut = true ∧ (fl.marginalize_selection = true ∨ fl.min_neff_cut = true)
    · rw [if_pos hfl] at hr; cases hr
    · rw [if_neg hfl] at hr
      rcases h with h | ⟨h, rfl⟩
      · exact absurd hfl h
      · have : ratePart fl none Tobs unscaled (detection_efficiency inj total_inj fl.log).1 = .error .typeError := by
          simp [ratePart, h]
        simp only [this] at hr
        cases hr
  · push Not at h
    have := (hl_factors_samples fl pe inj total_inj Nobs Tobs hv unscaled ppc h.1 h.2).1
    rw [this]
    refine ⟨?_, fun _ => rfl⟩
    intro v hv
    rw [List.mem_singleton.1 hv]
    exact likelihoodValue_finite fl pe.array inj total_inj Nobs

/-- a run over NaN weights still contributes a number -/
example : ∃ x : ℝ, factors (hierarchical_likelihood (E := 1) (N := 2) (M := 1) {} (.single fun _ _ => nan) (fun _ => pinf) 5 1
    (fin 1) (some (fin 1)) (fin 1)).1 = [fin x] := by
  have h := hl_factors_samples (E := 1) (N := 2) (M := 1) {} (.single fun _ _ => nan) (fun _ => pinf) 5 1 (fin 1)
    (some (fin 1)) (fin 1) none (by simp [Flags.ok]) (by simp)
  obtain ⟨x, hx⟩ := likelihoodValue_finite (E := 1) (N := 2) (M := 1) {} (fun _ _ => nan) (fun _ => pinf) 5 1
  exact ⟨x, by rw [h.1]; exact congrArg (fun v => [v]) hx⟩

/-! ### C46 -/

/-- C46: incompatible flags raise `ValueError` before any statement is executed. -/
theorem C46_incompatible_flags {E N M : ℕ} (fl : Flags) (pe : PEWeights E N) (inj : Fin M → F) (total_inj Nobs : ℕ)
    (Tobs : F) (hv : Option F) (unscaled : F) (ppc : Option (PPC E N M)) :
    (fl.max_variance_cut = true ∧ (fl.marginalize_selection = true ∨ fl.min_neff_cut = true) →
      hierarchical_likelihood fl pe inj total_inj Nobs Tobs hv unscaled ppc = ([], .error .valueError)) := by
  intro h
  unfold hierarchical_likelihood
  rw [if_pos h]

theorem minF_real {E : ℕ} (a : Fin E → ℝ) (hE : 0 < E) : ∃ m : ℝ, minF (fun e => fin (a e)) = fin m ∧
    (∀ e, m ≤ a e) ∧ ∃ e, a e = m := by
  unfold minF
  have hgen : ∀ s : Finset (Fin E), s.Nonempty → ∃ m : ℝ, s.fold F.min pinf (fun e => fin (a e)) = fin m ∧
      (∀ e ∈ s, m ≤ a e) ∧ ∃ e ∈ s, a e = m := by
    intro s hs
    induction hs using Finset.Nonempty.cons_induction with
    | singleton e => exact ⟨a e, by simp [F.min], by simp, e, by simp⟩
    | cons e s he hs ih =>
      obtain ⟨m, h1, h2, e', he', h3⟩ := ih
      rw [Finset.fold_cons, h1]
      by_cases h : a e ≤ m
      · refine ⟨a e, by simp [F.min, h], ?_, e, by simp, rfl⟩
        intro i hi
        rcases Finset.mem_cons.1 hi with rfl | hi
        · exact le_rfl
        · exact h.trans (h2 i hi)
      · refine ⟨m, by simp [F.min, h], ?_, e', by simp [he'], h3⟩
        intro i hi
        rcases Finset.mem_cons.1 hi with rfl | hi
        · exact (not_le.1 h).le
        · exact h2 i hi
  obtain ⟨m, h1, h2, e, _, h3⟩ := hgen univ ⟨⟨0, hE⟩, mem_univ _⟩
  exact ⟨m, h1, fun e => h2 e (mem_univ e), e, h3⟩

/-- an event whose reported effective sample size is NaN or at most `Nobs` -/
def PoorEvent {E N : ℕ} (pe : Fin E → Fin N → F) (log : Bool) (Nobs : ℕ) : Prop :=
  ∃ e, isnan ((per_event_log_bayes_factors pe log).2.1 e) ∨ le (exp ((per_event_log_bayes_factors pe log).2.1 e)) (fin Nobs)

theorem exp_BIG_lt (Nobs : ℕ) (h : (Nobs : ℝ) < 2 ^ 127) : (Nobs : ℝ) < Real.exp BIG := by
  have h1 := Real.add_one_le_exp BIG
  have : (2 : ℝ) ^ 127 < BIG := by norm_num [BIG]
  linarith

/-- the per-event cut fires exactly when some event is poor -/
theorem neffCut_iff {E N : ℕ} (pe : Fin E → Fin N → F) (log : Bool) (Nobs : ℕ) (hE : 0 < E) (hN : 1 ≤ Nobs)
    (hN' : (Nobs : ℝ) < 2 ^ 127) :
    le (exp (minF fun e => nanToNum ((per_event_log_bayes_factors pe log).2.1 e))) (fin Nobs) ↔ PoorEvent pe log Nobs := by
  unfold PoorEvent
  generalize (per_event_log_bayes_factors pe log).2.1 = L
  have hNr : (1 : ℝ) ≤ Nobs := by exact_mod_cast hN
  obtain ⟨m, h1, h2, e0, h3⟩ := minF_real (fun e => (nanToNum (L e)).toReal) hE
  have hfin : (fun e => nanToNum (L e)) = fun e => fin (nanToNum (L e)).toReal := by
    funext e; obtain ⟨x, hx⟩ := nanToNum_isfinite (L e); rw [hx]; rfl
  rw [hfin, h1]
  have hiff : ∀ e, (isnan (L e) ∨ le (exp (L e)) (fin Nobs)) ↔ Real.exp (nanToNum (L e)).toReal ≤ Nobs := by
    intro e
    rcases L e with x | _ | _ | _
    · simp
    · simp [exp_BIG_lt Nobs hN']
    · simp only [isnan_ninf, exp_ninf, le_fin, false_or, nanToNum_ninf, toReal_fin]
      have : Real.exp (-BIG) ≤ 1 := by rw [Real.exp_le_one_iff]; linarith [BIG_pos]
      exact ⟨fun _ => this.trans hNr, fun _ => by positivity⟩
    · simp [hNr]
  rw [exp_fin, le_fin]
  constructor
  · intro h; exact ⟨e0, (hiff e0).2 (by rw [h3]; exact h)⟩
  · rintro ⟨e, he⟩
    exact (Real.exp_le_exp.2 (h2 e)).trans ((hiff e).1 he)

/-- C46: with `min_neff_cut`, the contribution is the large negative constant whenever some event's effective sample size
is NaN or at most `Nobs` — for arbitrary weights.  (`Nobs < 2^127` is a bound far above any float32 count.) -/
theorem C46_neff_cut {E N M : ℕ} (fl : Flags) (pe : PEWeights E N) (inj : Fin M → F) (total_inj Nobs : ℕ)
    (Tobs : F) (hv : Option F) (unscaled : F) (ppc : Option (PPC E N M)) (hcut : fl.min_neff_cut = true) (hfl : fl.ok)
    (hhv : fl.reconstruct_rate = true → hv ≠ none) (hE : 0 < E) (hN : 1 ≤ Nobs) (hN' : (Nobs : ℝ) < 2 ^ 127)
    (hpoor : PoorEvent pe.array fl.log Nobs) :
    factors (hierarchical_likelihood fl pe inj total_inj Nobs Tobs hv unscaled ppc).1 = [negBig] := by
  rw [(hl_factors_samples fl pe inj total_inj Nobs Tobs hv unscaled ppc hfl hhv).1]
  have hmv : fl.max_variance_cut = false := by
    cases h : fl.max_variance_cut with
    | false => rfl
    | true => exact absurd ⟨h, Or.inr hcut⟩ hfl
  unfold likelihoodValue varianceCut neffCut
  simp only [hmv, hcut, Bool.false_eq_true, if_false, if_true]
  rw [if_pos ((neffCut_iff pe.array fl.log Nobs hE hN hN').2 hpoor)]
  rfl

/-- C46: with `min_neff_cut` and no poor event, the contribution is the selection term plus the summed log Bayes factors
(guarded against NaN and infinities); and when the injection effective sample size is not `≥ 4 Nobs`, the selection term
is the large negative constant. -/
theorem C46_selection_cut {E N M : ℕ} (fl : Flags) (pe : PEWeights E N) (inj : Fin M → F) (total_inj Nobs : ℕ)
    (Tobs : F) (hv : Option F) (unscaled : F) (ppc : Option (PPC E N M)) (hcut : fl.min_neff_cut = true) (hfl : fl.ok)
    (hhv : fl.reconstruct_rate = true → hv ≠ none) (hE : 0 < E) (hN : 1 ≤ Nobs) (hN' : (Nobs : ℝ) < 2 ^ 127)
    (hgood : ¬ PoorEvent pe.array fl.log Nobs)
    (hinj : ¬ le (log (fin (4 * Nobs))) (detection_efficiency inj total_inj fl.log).2.1) :
    factors (hierarchical_likelihood fl pe inj total_inj Nobs Tobs hv unscaled ppc).1
      = [if isnan (∑ e, (per_event_log_bayes_factors pe.array fl.log).1 e) then negBig
         else nanToNum (negBig + ∑ e, (per_event_log_bayes_factors pe.array fl.log).1 e)] ∧
    Site.det "selection_factor" [negBig] ∈ (hierarchical_likelihood fl pe inj total_inj Nobs Tobs hv unscaled ppc).1 := by
  have hsel : selectionFactor fl Nobs (detection_efficiency inj total_inj fl.log).1
      (detection_efficiency inj total_inj fl.log).2.1 = negBig := by
    unfold selectionFactor
    simp only [hcut, if_true]
    rw [if_neg (show ¬ ge _ _ from hinj)]
    simp [negBig]
  constructor
  · rw [(hl_factors_samples fl pe inj total_inj Nobs Tobs hv unscaled ppc hfl hhv).1]
    have hmv : fl.max_variance_cut = false := by
      cases h : fl.max_variance_cut with
      | false => rfl
      | true => exact absurd ⟨h, Or.inr hcut⟩ hfl
    unfold likelihoodValue varianceCut neffCut
    simp only [hmv, hcut, Bool.false_eq_true, if_false, if_true]
    rw [if_neg (fun h => hgood ((neffCut_iff pe.array fl.log Nobs hE hN hN').1 h)), hsel]
    unfold guardedLogL
    refine congrArg (fun v => [v]) ?_
    generalize ∑ e, (per_event_log_bayes_factors pe.array fl.log).1 e = S
    cases S <;> simp [negBig]
  · unfold hierarchical_likelihood
    rw [if_neg hfl]
    have hr : ∃ rp, ratePart fl hv Tobs unscaled (detection_efficiency inj total_inj fl.log).1 = .ok rp := by
      unfold ratePart
      cases hb : fl.reconstruct_rate with
      | false => exact ⟨_, rfl⟩
      | true =>
        cases hv with
        | none => exact absurd rfl (hhv hb)
        | some v => exact ⟨_, rfl⟩
    obtain ⟨rp, hrp⟩ := hr
    simp only [hrp, hsel]
    cases ppc <;> simp

/-- C46: with `max_variance_cut`, the contribution is the large negative constant when the reported total variance is not
`≤ 1` (NaN included), and otherwise the same as without the cut. -/
theorem C46_variance_cut {E N M : ℕ} (fl : Flags) (pe : PEWeights E N) (inj : Fin M → F) (total_inj Nobs : ℕ)
    (Tobs : F) (hv : Option F) (unscaled : F) (ppc : Option (PPC E N M)) (hcut : fl.max_variance_cut = true) (hfl : fl.ok)
    (hhv : fl.reconstruct_rate = true → hv ≠ none) :
    let total := fin ((Nobs : ℝ) ^ 2) * (detection_efficiency inj total_inj fl.log).2.2
      + ∑ e, (per_event_log_bayes_factors pe.array fl.log).2.2 e
    let run := fun fl => factors (hierarchical_likelihood fl pe inj total_inj Nobs Tobs hv unscaled ppc).1
    (¬ le total (fin 1) → run fl = [negBig]) ∧
    (le total (fin 1) → run fl = run { fl with max_variance_cut := false }) := by
  intro total run
  have h1 := (hl_factors_samples fl pe inj total_inj Nobs Tobs hv unscaled ppc hfl hhv).1
  have h2 := (hl_factors_samples { fl with max_variance_cut := false } pe inj total_inj Nobs Tobs hv unscaled ppc
    (by simp [Flags.ok]) hhv).1
  constructor
  · intro h
    change factors _ = _
    rw [h1]
    unfold likelihoodValue varianceCut
    simp only [hcut, if_true]
    rw [if_neg (show ¬ le _ (1 : F) from h)]
    rfl
  · intro h
    change factors _ = factors _
    rw [h1, h2]
    unfold likelihoodValue varianceCut
    simp only [hcut, if_true, Bool.false_eq_true, if_false]
    rw [if_pos (show le _ (1 : F) from h)]
    rfl

/-- the hypotheses can be met: one event with all-zero weights is poor (its effective sample size is NaN) -/
example : factors (hierarchical_likelihood (E := 1) (N := 2) (M := 1) {} (.single fun _ _ => fin 0) (fun _ => fin 1) 5 1
    (fin 1) (some (fin 1)) (fin 1)).1 = [negBig] := by
  refine C46_neff_cut _ _ _ _ _ _ _ _ _ rfl (by simp [Flags.ok]) (by simp) (by norm_num) le_rfl (by norm_num) ⟨0, Or.inl ?_⟩
  simp only [per_event_log_bayes_factors, perEventRow, PEWeights.array, sq_fin, sum_fin, Bool.false_eq_true, if_false]
  simp [div_fin_zero]

/-! ### C47 -/

/-- C47: for non-negative weights, not all zero in any event or over the injections, when the effective sample sizes pass
the thresholds (and the total variance passes when that cut is on), the run contributes exactly
`∑ log(mean weight) - Nobs * log(efficiency)`, plus the selection-uncertainty correction `Nobs (3 + Nobs) / (2 n_eff)`
when marginalising, where `1 / n_eff = relVar` (zero, so `n_eff` infinite, when every injection is found with the same weight). -/
theorem C47_value {E N M : ℕ} (fl : Flags) (w : Fin E → Fin N → ℝ) (v : Fin M → ℝ) (n Nobs : ℕ)
    (Tobs : F) (hv : Option F) (unscaled : F) (ppc : Option (PPC E N M)) (hfl : fl.ok)
    (hhv : fl.reconstruct_rate = true → hv ≠ none) (hE : 0 < E) (hN : 1 ≤ Nobs)
    (hw : ∀ e i, 0 ≤ w e i) (hwp : ∀ e, ∃ i, 0 < w e i) (hv0 : ∀ i, 0 ≤ v i) (hvp : ∃ i, 0 < v i) (hMn : M ≤ n)
    (hneff : fl.min_neff_cut = true → (∀ e, (Nobs : ℝ) < kish (w e)) ∧ 4 * (Nobs : ℝ) * relVar v n ≤ 1)
    (hvar : fl.max_variance_cut = true →
      (Nobs : ℝ) ^ 2 * (relVar v n - 1 / n) + ∑ e, (1 / kish (w e) - 1 / N) ≤ 1) :
    factors (hierarchical_likelihood fl (.single fun e i => encode fl.log (w e i)) (fun i => encode fl.log (v i)) n Nobs
        Tobs hv unscaled ppc).1
      = [fin (∑ e, Real.log (mean (w e)) - Nobs * Real.log ((∑ i, v i) / n)
          + (if fl.marginalize_selection then Nobs * (3 + Nobs) / 2 * relVar v n else 0))] := by
  rw [(hl_factors_samples fl _ _ n Nobs Tobs hv unscaled ppc hfl hhv).1]
  refine congrArg (fun x => [x]) ?_
  have hb := C40_value w hw hwp fl.log
  have hd := detection_efficiency_value hMn v hv0 hvp fl.log
  have hrv0 := relVar_nonneg hMn v hv0 hvp
  have hNr : (1 : ℝ) ≤ Nobs := by exact_mod_cast hN
  change likelihoodValue fl (fun e i => encode fl.log (w e i)) (fun i => encode fl.log (v i)) n Nobs = _
  unfold likelihoodValue
  simp only [hb, hd, sum_fin]
  have hsel : selectionFactor fl Nobs (fin (Real.log ((∑ i, v i) / n))) (if relVar v n = 0 then pinf else fin (-Real.log (relVar v n)))
      = fin (-Nobs * Real.log ((∑ i, v i) / n)
          + (if fl.marginalize_selection then Nobs * (3 + Nobs) / 2 * relVar v n else 0)) := by
    unfold selectionFactor
    have hge : fl.min_neff_cut = true → ge (if relVar v n = 0 then pinf else fin (-Real.log (relVar v n))) (log (fin (4 * Nobs))) := by
      intro h
      have h4 := (hneff h).2
      by_cases h0 : relVar v n = 0
      · rw [if_pos h0, log_fin (by linarith)]; trivial
      · have hrv : 0 < relVar v n := lt_of_le_of_ne hrv0 (Ne.symm h0)
        rw [if_neg h0, log_fin (by linarith), ge_fin, ← Real.log_inv]
        refine Real.log_le_log (by linarith) ?_
        rw [← one_div, le_div_iff₀ hrv]
        exact h4
    have hx : fin (3 + Nobs) / (2 * exp (if relVar v n = 0 then pinf else fin (-Real.log (relVar v n)))) = fin ((3 + Nobs) / 2 * relVar v n) := by
      by_cases h0 : relVar v n = 0
      · rw [if_pos h0, h0, mul_zero, exp_pinf, ofNat_def, fin_mul_pinf, infOfSign_pos (by norm_num), fin_div_pinf]
      · have hrv : 0 < relVar v n := lt_of_le_of_ne hrv0 (Ne.symm h0)
        rw [if_neg h0, exp_fin, Real.exp_neg, Real.exp_log hrv, ofNat_def, mul_fin, div_fin (by positivity)]
        refine congrArg fin ?_
        push_cast
        field_simp
    have hcut : ∀ y : F, (if fl.min_neff_cut = true then (if ge (if relVar v n = 0 then pinf else fin (-Real.log (relVar v n))) (log (fin (4 * Nobs)))
        then y else pinf) else y) = y := by
      intro y
      by_cases h : fl.min_neff_cut = true
      · rw [if_pos h, if_pos (hge h)]
      · rw [if_neg h]
    simp only [hcut, hx]
    cases hm : fl.marginalize_selection <;>
      simp only [Bool.false_eq_true, if_false, if_true, mul_fin, sub_fin, neg_fin, isinf_fin, add_zero]
    refine congrArg fin ?_; ring
  rw [hsel]
  have hg : guardedLogL (fin (-Nobs * Real.log ((∑ i, v i) / n)
          + (if fl.marginalize_selection then Nobs * (3 + Nobs) / 2 * relVar v n else 0)))
        (fin (∑ e, Real.log (mean (w e)))) = fin (∑ e, Real.log (mean (w e)) - Nobs * Real.log ((∑ i, v i) / n)
          + (if fl.marginalize_selection then Nobs * (3 + Nobs) / 2 * relVar v n else 0)) := by
    simp only [guardedLogL, add_fin, isnan_fin, if_false, nanToNum_fin]
    refine congrArg fin ?_; ring
  rw [hg]
  have hn : neffCut fl Nobs (fun e => fin (Real.log (kish (w e)))) = id := by
    funext x
    unfold neffCut
    cases hc : fl.min_neff_cut with
    | false => simp
    | true =>
      simp only [if_true, nanToNum_fin]
      obtain ⟨m, h1, _, e0, h3⟩ := minF_real (fun e => Real.log (kish (w e))) hE
      have hk := (hneff hc).1 e0
      refine if_neg ?_
      rw [show (minF fun e => fin (Real.log (kish (w e)))) = fin m from h1, exp_fin, le_fin, ← h3,
        Real.exp_log (by linarith)]
      exact not_le.2 hk
  rw [hn]
  unfold varianceCut
  cases hc : fl.max_variance_cut with
  | false => simp
  | true =>
    simp only [if_true, mul_fin, add_fin, one_def, le_fin, id]
    rw [if_pos (hvar hc)]

/-- C47: relabelling the events changes nothing, for arbitrary weights. -/
theorem C47_event_order {E N M : ℕ} (fl : Flags) (σ : Equiv.Perm (Fin E)) (w : Fin E → Fin N → F) (inj : Fin M → F)
    (total_inj Nobs : ℕ) (Tobs : F) (hv : Option F) (unscaled : F) :
    factors (hierarchical_likelihood fl (.single fun e => w (σ e)) inj total_inj Nobs Tobs hv unscaled).1
      = factors (hierarchical_likelihood fl (.single w) inj total_inj Nobs Tobs hv unscaled).1 := by
  by_cases h : ¬ fl.ok ∨ (fl.reconstruct_rate = true ∧ hv = none)
  · rw [hl_error_factors _ _ _ _ _ _ _ _ _ h, hl_error_factors _ _ _ _ _ _ _ _ _ h]
  · push Not at h
    rw [(hl_factors_samples fl _ inj total_inj Nobs Tobs hv unscaled none h.1 h.2).1,
      (hl_factors_samples fl _ inj total_inj Nobs Tobs hv unscaled none h.1 h.2).1]
    refine congrArg (fun x => [x]) ?_
    change likelihoodValue fl (fun e => w (σ e)) inj total_inj Nobs = likelihoodValue fl w inj total_inj Nobs
    unfold likelihoodValue
    have e1 : (∑ e, (per_event_log_bayes_factors (fun e => w (σ e)) fl.log).1 e)
        = ∑ e, (per_event_log_bayes_factors w fl.log).1 e :=
      Equiv.sum_comp σ (fun e => (per_event_log_bayes_factors w fl.log).1 e)
    have e2 : (∑ e, (per_event_log_bayes_factors (fun e => w (σ e)) fl.log).2.2 e)
        = ∑ e, (per_event_log_bayes_factors w fl.log).2.2 e :=
      Equiv.sum_comp σ (fun e => (per_event_log_bayes_factors w fl.log).2.2 e)
    have e3 : minF (fun e => nanToNum ((per_event_log_bayes_factors (fun e => w (σ e)) fl.log).2.1 e))
        = minF (fun e => nanToNum ((per_event_log_bayes_factors w fl.log).2.1 e)) :=
      minF_perm σ (fun e => nanToNum ((per_event_log_bayes_factors w fl.log).2.1 e))
    simp only [e1, e2, neffCut, e3]

/-- C47: with `Nobs` events, multiplying every PE weight and every injection weight by the same `c > 0` (the unknown
constant of the sampling prior or of the population density) changes nothing when no cut fires. -/
theorem C47_common_rescaling {E N M : ℕ} (fl : Flags) (w : Fin E → Fin N → ℝ) (v : Fin M → ℝ) (n : ℕ)
    (Tobs : F) (hv : Option F) (unscaled : F) (hfl : fl.ok)
    (hhv : fl.reconstruct_rate = true → hv ≠ none) (hE : 0 < E)
    (hw : ∀ e i, 0 ≤ w e i) (hwp : ∀ e, ∃ i, 0 < w e i) (hv0 : ∀ i, 0 ≤ v i) (hvp : ∃ i, 0 < v i) (hMn : M ≤ n)
    (hneff : fl.min_neff_cut = true → (∀ e, (E : ℝ) < kish (w e)) ∧ 4 * (E : ℝ) * relVar v n ≤ 1)
    (hvar : fl.max_variance_cut = true →
      (E : ℝ) ^ 2 * (relVar v n - 1 / n) + ∑ e, (1 / kish (w e) - 1 / N) ≤ 1)
    {c : ℝ} (hc : 0 < c) :
    factors (hierarchical_likelihood fl (.single fun e i => encode fl.log (c * w e i)) (fun i => encode fl.log (c * v i)) n E
        Tobs hv unscaled).1
      = factors (hierarchical_likelihood fl (.single fun e i => encode fl.log (w e i)) (fun i => encode fl.log (v i)) n E
        Tobs hv unscaled).1 := by
  have hr : relVar (fun i => c * v i) n = relVar v n := by
    unfold relVar
    simp only [mul_pow, ← Finset.mul_sum]
    rw [mul_div_mul_left _ _ (pow_pos hc 2).ne']
  have hks : ∀ e, kish (fun i => c * w e i) = kish (w e) := fun e => kish_scale _ hc
  obtain ⟨hS, _⟩ := sum_pos_of hv0 hvp
  have hnr : (0 : ℝ) < n := by exact_mod_cast (card_pos_of hvp).trans_le hMn
  rw [C47_value fl w v n E Tobs hv unscaled none hfl hhv hE hE hw hwp hv0 hvp hMn hneff hvar,
    C47_value fl (fun e i => c * w e i) (fun i => c * v i) n E Tobs hv unscaled none hfl hhv hE hE
      (fun e i => mul_nonneg hc.le (hw e i)) (fun e => (hwp e).imp fun i hi => mul_pos hc hi)
      (fun i => mul_nonneg hc.le (hv0 i)) (hvp.imp fun i hi => mul_pos hc hi) hMn
      (by simp only [hks, hr]; exact hneff) (by simp only [hks, hr]; exact hvar)]
  refine congrArg (fun x => [fin x]) ?_
  have hm : ∀ e, Real.log (mean fun i => c * w e i) = Real.log c + Real.log (mean (w e)) := fun e => by
    rw [mean_scale, Real.log_mul hc.ne' (mean_pos (hw e) (hwp e)).ne']
  simp only [hm, hr, Finset.sum_add_distrib, Finset.sum_const, Finset.card_univ, Fintype.card_fin, nsmul_eq_mul,
    ← Finset.mul_sum]
  rw [mul_div_assoc, Real.log_mul hc.ne' (div_pos hS hnr).ne']
  ring

/-- the hypotheses of `C47_value` are met by one event with two equal samples and 5 equal injections found out of 6 -/
example : factors (hierarchical_likelihood {} (.single fun (_ : Fin 1) (_ : Fin 2) => encode false 1)
      (fun _ : Fin 5 => encode false 1) 6 1 (fin 1) (some (fin 1)) (fin 1)).1
    = [fin (-Real.log (5 / 6))] := by
  have hr : relVar (fun _ : Fin 5 => (1 : ℝ)) 6 = 1 / 30 := by norm_num [relVar]
  have hk : kish (fun _ : Fin 2 => (1 : ℝ)) = 2 := by norm_num [kish]
  have := C47_value {} (fun (_ : Fin 1) (_ : Fin 2) => (1 : ℝ)) (fun _ : Fin 5 => (1 : ℝ)) 6 1 (fin 1) (some (fin 1))
    (fin 1) none (by simp [Flags.ok]) (by simp) (by norm_num) le_rfl (by simp) (fun _ => ⟨0, by simp⟩) (by simp)
    ⟨0, by simp⟩ (by norm_num) (fun _ => ⟨fun _ => by rw [hk]; norm_num, by rw [hr]; norm_num⟩)
    (by simp)
  refine this.trans ?_
  simp [mean]

/-! ### C48 -/

/-- C48: the returned rate satisfies `rate * (hypervolume/1e9 * Tobs) * efficiency = unscaled_rate` for every positive
hypervolume, observing time and non-zero weights, whatever the other flags are (so the cuts and the marginalisation do
not alter it). -/
theorem C48_rate {E N M : ℕ} (fl : Flags) (pe : PEWeights E N) (v : Fin M → ℝ) (n Nobs : ℕ) (T V u : ℝ)
    (hfl : fl.ok) (hrate : fl.reconstruct_rate = true) (hv0 : ∀ i, 0 ≤ v i) (hvp : ∃ i, 0 < v i) (hMn : M ≤ n)
    (hT : 0 < T) (hV : 0 < V) :
    ∃ r : ℝ, (hierarchical_likelihood fl pe (fun i => encode fl.log (v i)) n Nobs (fin T) (some (fin V)) (fin u)).2
        = .ok (some (fin r)) ∧
      Site.det "rate" [fin r] ∈
        (hierarchical_likelihood fl pe (fun i => encode fl.log (v i)) n Nobs (fin T) (some (fin V)) (fin u)).1 ∧
      r * (V / 1e9 * T) * ((∑ i, v i) / n) = u := by
  obtain ⟨hS, _⟩ := sum_pos_of hv0 hvp
  have hnr : (0 : ℝ) < n := by exact_mod_cast (card_pos_of hvp).trans_le hMn
  have hmu : 0 < (∑ i, v i) / n := div_pos hS hnr
  have hvt : 0 < V / 1e9 * T := by positivity
  have hrp : ratePart fl (some (fin V)) (fin T) (fin u) (detection_efficiency (fun i => encode fl.log (v i)) n fl.log).1
      = .ok ([.det "surveyed_hypervolume" [fin (V / 1e9 * T)], .sample "unscaled_rate",
        .det "rate" [fin (u / ((∑ i, v i) / n) / (V / 1e9 * T))]], some (fin (u / ((∑ i, v i) / n) / (V / 1e9 * T)))) := by
    unfold ratePart
    rw [detection_efficiency_value hMn v hv0 hvp]
    simp only [hrate, if_true, exp_fin]
    rw [Real.exp_log hmu, div_fin hmu.ne', div_fin (by norm_num), mul_fin, div_fin hvt.ne']
  refine ⟨u / ((∑ i, v i) / n) / (V / 1e9 * T), ?_, ?_, ?_⟩
  · unfold hierarchical_likelihood
    rw [if_neg hfl]
    simp only [hrp]
  · unfold hierarchical_likelihood
    rw [if_neg hfl]
    simp only [hrp]
    simp
  · field_simp

/-- C48: with `reconstruct_rate=False` nothing is sampled for a rate and `None` is returned. -/
theorem C48_no_rate {E N M : ℕ} (fl : Flags) (w : Fin E → Fin N → F) (inj : Fin M → F) (n Nobs : ℕ) (Tobs : F)
    (hv : Option F) (unscaled : F) (hfl : fl.ok) (hrate : fl.reconstruct_rate = false) :
    (hierarchical_likelihood fl (.single w) inj n Nobs Tobs hv unscaled).2 = .ok none ∧
    samples (hierarchical_likelihood fl (.single w) inj n Nobs Tobs hv unscaled).1 = [] := by
  constructor
  · unfold hierarchical_likelihood
    rw [if_neg hfl]
    have : ratePart fl hv Tobs unscaled (detection_efficiency inj n fl.log).1 = .ok ([], none) := by simp [ratePart, hrate]
    simp only [this]
  · rw [(hl_factors_samples fl _ inj n Nobs Tobs hv unscaled none hfl (by simp [hrate])).2]
    simp [hrate, PEWeights.sites, samples]

example : ∃ r : ℝ, (hierarchical_likelihood (E := 1) (N := 1) {} (.single fun _ _ => nan) (fun i : Fin 2 => encode false ((i : ℕ) : ℝ)) 4 1
    (fin 1) (some (fin 1)) (fin 3)).2 = .ok (some (fin r)) := by
  obtain ⟨r, h, _⟩ := C48_rate (E := 1) (N := 1) {} (.single fun _ _ => nan) (fun i : Fin 2 => ((i : ℕ) : ℝ)) 4 1 1 1 3
    (by simp [Flags.ok]) rfl (fun _ => Nat.cast_nonneg _) ⟨1, by simp⟩ (by norm_num) one_pos one_pos
  exact ⟨r, h⟩

end GW
end
