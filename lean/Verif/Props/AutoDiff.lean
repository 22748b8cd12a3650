import Verif.Model.AutoDiff
import Verif.Props.LikelihoodSmooth

/-! # Property C125: the gradient of the log likelihood used by the samplers -/

open Filter Topology Finset
noncomputable section
open Classical
namespace GW
open F

variable {V : Type*} [NormedAddCommGroup V] [NormedSpace ℝ V]

/-! ### the differentiable program computes the likelihood -/

theorem lseD_f {n : ℕ} (a : Fin n → F) : lseD.f a () = logsumexp a := rfl

theorem perEventD_f {E N : ℕ} (log : Bool) (pe : Fin E → Fin N → F) (e : Fin E) :
    (perEventD E N log).f (fun ej => pe ej.1 ej.2) e = (per_event_log_bayes_factors pe log).1 e := by
  cases log <;> rfl

theorem logmuD_f {M : ℕ} (Ninj : ℕ) (log : Bool) (inj : Fin M → F) :
    (logmuD M Ninj log).f inj () = (detection_efficiency inj Ninj log).1 := by
  cases log <;> rfl

theorem detectionD_f {M : ℕ} (Ninj : ℕ) (log : Bool) (inj : Fin M → F) :
    (detectionD M Ninj log).f inj (.inl ()) = (detection_efficiency inj Ninj log).1 ∧
    (detectionD M Ninj log).f inj (.inr ()) = (detection_efficiency inj Ninj log).2.1 := by
  cases log <;> exact ⟨rfl, rfl⟩

theorem selectionD_f {M : ℕ} (fl : Flags) (Ninj Nobs : ℕ) (inj : Fin M → F) (poor : Prop)
    (hp : poor ↔ ¬ ge (detection_efficiency inj Ninj fl.log).2.1 (F.log (fin (4 * Nobs)))) :
    (selectionD fl M Ninj Nobs poor).f inj () =
      selectionFactor fl Nobs (detection_efficiency inj Ninj fl.log).1 (detection_efficiency inj Ninj fl.log).2.1 := by
  have h1 : (logDetEffD fl M Ninj Nobs).f inj () = if fl.marginalize_selection then (detection_efficiency inj Ninj fl.log).1 -
      fin (3 + Nobs) / (2 * F.exp (detection_efficiency inj Ninj fl.log).2.1) else (detection_efficiency inj Ninj fl.log).1 := by
    unfold logDetEffD
    cases fl.marginalize_selection
    · exact logmuD_f Ninj fl.log inj
    · obtain ⟨a, b⟩ := detectionD_f Ninj fl.log inj
      rw [← a, ← b]; rfl
  unfold selectionD selectionFactor
  simp only [Diff.andThen, Diff.orElse, Diff.frozen, Diff.scale]
  rw [h1]
  cases fl.min_neff_cut
  · simp
  · by_cases hg : ge (detection_efficiency inj Ninj fl.log).2.1 (F.log (fin (4 * Nobs)))
    · simp [hp, hg]
    · simp [hp, hg]

/-- the value of the differentiable program is the value the run contributes -/
theorem likelihoodD_f {E N M : ℕ} (fl : Flags) (pe : Fin E → Fin N → F) (inj : Fin M → F) (Ninj Nobs : ℕ) :
    (likelihoodD fl E N M Ninj Nobs).f (Sum.elim (fun ej => pe ej.1 ej.2) inj) () = likelihoodValue fl pe inj Ninj Nobs := by
  unfold likelihoodD likelihoodValue
  simp only [Diff.frozen, Diff.andThen, Diff.orElse, Diff.par, Diff.add, Diff.sum, Diff.nanToNum, Sum.elim_inl, Sum.elim_inr]
  simp only [selectionD_f fl Ninj Nobs inj _ Iff.rfl, perEventD_f]
  simp only [add_comm (∑ e, (per_event_log_bayes_factors pe fl.log).1 e) (selectionFactor _ _ _ _)]
  unfold varianceCut neffCut guardedLogL
  cases fl.min_neff_cut <;> cases fl.max_variance_cut <;> simp <;> split_ifs <;> simp_all

/-! ### its pullback on finite likelihoods -/

theorem lseShift_fin {n : ℕ} (a : Fin n → F) : ∃ m : ℝ, lseShift a = fin m := by
  unfold lseShift
  by_cases h : isfinite (maxF a)
  · rw [if_pos h]; exact h
  · rw [if_neg h]; exact ⟨0, rfl⟩

theorem lseD_vjp {n : ℕ} (w : Fin n → ℝ) (hw : ∀ i, 0 ≤ w i) (hp : 0 < ∑ i, w i) (ct : ℝ) (i : Fin n) :
    lseD.vjp (fun i => F.log (fin (w i))) (fun _ => fin ct) i = fin (ct * (w i / ∑ j, w j)) := by
  obtain ⟨m, hm⟩ := lseShift_fin fun i => F.log (fin (w i))
  have he := Real.exp_pos (-m)
  simp only [lseD, Diff.frozen, Diff.andThen, Diff.subC, Diff.exp, Diff.sum, Diff.log, Diff.addC, hm, fun j => exp_log_sub (hw j) m, sum_fin]
  rw [← Finset.sum_mul, div_fin (mul_pos hp he).ne', mul_fin]
  refine congrArg fin ?_
  field_simp

/-- factor that turns a derivative in a weight into one in its encoding -/
def unit (log : Bool) (x : ℝ) : ℝ := if log then x else 1

theorem perEventD_vjp {E N : ℕ} (log : Bool) (w : Fin E → Fin N → ℝ) (hw : ∀ e i, 0 ≤ w e i) (hp : ∀ e, ∃ i, 0 < w e i) (ct : Fin E → ℝ) :
    (perEventD E N log).vjp (fun ej => encode log (w ej.1 ej.2)) (fun e => fin (ct e)) =
      fun ej => fin (unit log (w ej.1 ej.2) * (ct ej.1 / ∑ j, w ej.1 j)) := by
  funext ej
  have hs := (sum_pos_of (hw ej.1) (hp ej.1)).1
  have hN : (0 : ℝ) < N := by exact_mod_cast card_pos_of (hp ej.1)
  cases log
  · simp only [perEventD, Bool.false_eq_true, if_false, Diff.andThen, Diff.sumRows, Diff.divC, Diff.log, encode, unit, sum_fin, div_fin hN.ne']
    rw [div_fin (div_pos hs hN).ne', div_fin hN.ne']
    refine congrArg fin ?_
    field_simp
  · have h := lseD_vjp (w ej.1) (hw ej.1) hs (ct ej.1) ej.2
    simp only [perEventD, if_true, Diff.andThen, Diff.subC, lseRowsD, encode, unit, h]
    refine congrArg fin ?_
    ring

theorem logmuD_vjp {M n : ℕ} (log : Bool) (v : Fin M → ℝ) (hv : ∀ i, 0 ≤ v i) (hp : ∃ i, 0 < v i) (hn : 0 < n) (ct : ℝ) :
    (logmuD M n log).vjp (fun i => encode log (v i)) (fun _ => fin ct) = fun i => fin (unit log (v i) * (ct / ∑ j, v j)) := by
  funext i
  have hs := (sum_pos_of hv hp).1
  have hN : (0 : ℝ) < n := by exact_mod_cast hn
  cases log
  · simp only [logmuD, Bool.false_eq_true, if_false, Diff.andThen, Diff.sum, Diff.divC, Diff.log, encode, unit, sum_fin, div_fin hN.ne']
    rw [div_fin (div_pos hs hN).ne', div_fin hN.ne']
    refine congrArg fin ?_
    field_simp
  · have h := lseD_vjp v hv hs ct i
    simp only [logmuD, if_true, Diff.andThen, Diff.subC, encode, unit, h]
    refine congrArg fin ?_
    ring

/-- pullback from `logmu - (3 + Nobs) / (2 * exp(2 * logmu - logvar))` to `(logmu, logvar)` -/
theorem margTail_vjp (a b ct : ℝ) (Nobs : ℕ) :
    (neffD.andThen (marginalD Nobs)).vjp (Sum.elim (fun _ => fin a) fun _ => fin b) (fun _ => fin ct) =
    Sum.elim (fun _ => fin (ct + ct * (3 + Nobs) / Real.exp (2 * a - b))) fun _ => fin (-(ct * (3 + Nobs) / (2 * Real.exp (2 * a - b)))) := by
  have he := Real.exp_pos (2 * a - b)
  have h2 : (2 * Real.exp (2 * a - b)) * (2 * Real.exp (2 * a - b)) ≠ 0 := by positivity
  funext u
  rcases u with u | u <;>
    simp only [neffD, marginalD, Diff.andThen, Diff.pair, Diff.fst, Diff.snd, Diff.scale, Diff.sub, Diff.exp, Diff.cDiv, Sum.elim_inl, Sum.elim_inr,
      ofNat_def, zero_def, one_def, mul_fin, sub_fin, exp_fin, sq_fin, neg_fin, add_fin, div_fin h2] <;>
    refine congrArg fin ?_ <;> field_simp <;> ring

theorem varD_vjp (n : ℕ) (hn : (n : ℝ) ≠ 0) (m s a b : ℝ) :
    (varD n).vjp (Sum.elim (fun _ => fin m) fun _ => fin s) (Sum.elim (fun _ => fin a) fun _ => fin b) =
    Sum.elim (fun _ => fin (a - b / n * (2 * m))) fun _ => fin b := by
  funext u
  rcases u with u | u <;>
    simp only [varD, Diff.andThen, Diff.pair, Diff.fst, Diff.snd, Diff.sq, Diff.sub, Diff.divC, Sum.elim_inl, Sum.elim_inr, ofNat_def, zero_def,
      mul_fin, neg_fin, add_fin, div_fin hn] <;>
    refine congrArg fin ?_ <;> (try field_simp) <;> ring

theorem varLogD_vjp (n : ℕ) (hn : (n : ℝ) ≠ 0) (l s a b : ℝ) :
    (varLogD n).vjp (Sum.elim (fun _ => fin l) fun _ => fin s) (Sum.elim (fun _ => fin a) fun _ => fin b) =
    Sum.elim (fun _ => fin (a - b / n * (2 * Real.exp l ^ 2))) fun _ => fin b := by
  funext u
  rcases u with u | u <;>
    simp only [varLogD, Diff.andThen, Diff.pair, Diff.fst, Diff.snd, Diff.sq, Diff.exp, Diff.sub, Diff.divC, Sum.elim_inl, Sum.elim_inr, ofNat_def,
      zero_def, exp_fin, mul_fin, neg_fin, add_fin, div_fin hn] <;>
    refine congrArg fin ?_ <;> (try field_simp) <;> ring

/-- the derivative of `relVar` in one weight -/
def relVarD {M : ℕ} (v : Fin M → ℝ) (i : Fin M) : ℝ := 2 * v i / (∑ j, v j) ^ 2 - 2 * (∑ j, v j ^ 2) / (∑ j, v j) ^ 3

theorem logDetEffD_vjp {M n Nobs : ℕ} (fl : Flags) (v : Fin M → ℝ) (hv : ∀ i, 0 ≤ v i) (hp : ∃ i, 0 < v i) (hn : 0 < n)
    (hr : fl.marginalize_selection = true → 0 < relVar v n) (ct : ℝ) :
    (logDetEffD fl M n Nobs).vjp (fun i => encode fl.log (v i)) (fun _ => fin ct) = fun i => fin (unit fl.log (v i) *
      (ct * (1 / (∑ j, v j) - if fl.marginalize_selection then (3 + Nobs) / 2 * relVarD v i else 0))) := by
  unfold logDetEffD
  cases hm : fl.marginalize_selection
  · simp only [Bool.false_eq_true, if_false, logmuD_vjp fl.log v hv hp hn]
    funext i
    refine congrArg fin ?_
    ring
  · obtain ⟨hS, hQ⟩ := sum_pos_of hv hp
    have hN : (0 : ℝ) < n := by exact_mod_cast hn
    have hvar := hr hm
    have hvar' : 0 < (∑ j, v j ^ 2) / (n : ℝ) ^ 2 - ((∑ j, v j) / n * ((∑ j, v j) / n)) / n := by
      have : (∑ j, v j ^ 2) / (n : ℝ) ^ 2 - ((∑ j, v j) / n * ((∑ j, v j) / n)) / n = relVar v n * ((∑ j, v j) / n) ^ 2 := by
        unfold relVar; field_simp
      rw [this]; positivity
    have hmu : 0 < (∑ j, v j) / n := div_pos hS hN
    have hE : ∀ x : ℝ, 0 < x → Real.exp (2 * Real.log ((∑ j, v j) / n) - Real.log x) = ((∑ j, v j) / n) ^ 2 / x := fun x hx => by
      rw [Real.exp_sub, Real.exp_log hx, two_mul, Real.exp_add, Real.exp_log hmu, pow_two]
    have hn2 : (n : ℝ) ^ 2 ≠ 0 := by positivity
    simp only [if_true]
    set S := ∑ j, v j with hSd
    set Q := ∑ j, v j ^ 2 with hQd
    set vr := Q / (n : ℝ) ^ 2 - (S / n * (S / n)) / n with hvr
    have hQ' : ∑ j, v j * v j = Q := by simp only [hQd, pow_two]
    have hv3 : (n : ℝ) ^ 3 * vr = n * Q - S ^ 2 := by rw [hvr]; field_simp
    cases hl : fl.log
    · have e1 : (momentsD M n).f (fun i => fin (v i)) = Sum.elim (fun _ => fin (S / n)) fun _ => fin (Q / (n : ℝ) ^ 2) := by
        simp only [momentsD, Diff.pair, Diff.andThen, Diff.sum, Diff.divC, Diff.sq, sq_fin, sum_fin, div_fin hN.ne', div_fin hn2, hQ', hSd]
      have e2 : (varD n).f (Sum.elim (fun _ => fin (S / n)) fun _ => fin (Q / (n : ℝ) ^ 2)) =
          Sum.elim (fun _ => fin (S / n)) fun _ => fin vr := by
        simp only [varD, Diff.pair, Diff.andThen, Diff.sub, Diff.divC, Diff.sq, Diff.fst, Diff.snd, Sum.elim_inl, Sum.elim_inr, sq_fin,
          div_fin hN.ne', sub_fin, hvr]
      have e3 : (Diff.par .log .log : Diff (Unit ⊕ Unit) (Unit ⊕ Unit)).f (Sum.elim (fun _ => fin (S / n)) fun _ => fin vr) =
          Sum.elim (fun _ => fin (Real.log (S / n))) fun _ => fin (Real.log vr) := by
        simp only [Diff.par, Diff.log, Sum.elim_inl, Sum.elim_inr, log_fin hmu, log_fin hvar']
      have e4 : ∀ a b : ℝ, (Diff.par .log .log : Diff (Unit ⊕ Unit) (Unit ⊕ Unit)).vjp (Sum.elim (fun _ => fin (S / n)) fun _ => fin vr)
          (Sum.elim (fun _ => fin a) fun _ => fin b) = Sum.elim (fun _ => fin (a / (S / n))) fun _ => fin (b / vr) := fun a b => by
        simp only [Diff.par, Diff.log, Sum.elim_inl, Sum.elim_inr, div_fin hmu.ne', div_fin hvar'.ne']
      have e5 : ∀ a b : ℝ, (momentsD M n).vjp (fun i => fin (v i)) (Sum.elim (fun _ => fin a) fun _ => fin b) =
          fun i => fin (a / n + b / (n : ℝ) ^ 2 * (2 * v i)) := fun a b => by
        simp only [momentsD, Diff.pair, Diff.andThen, Diff.sum, Diff.divC, Diff.sq, Sum.elim_inl, Sum.elim_inr, ofNat_def, mul_fin, add_fin,
          div_fin hN.ne', div_fin hn2]
      simp only [detectionD, Bool.false_eq_true, if_false, encode]
      change (momentsD M n).vjp _ ((varD n).vjp ((momentsD M n).f fun i => fin (v i)) ((Diff.par .log .log).vjp ((varD n).f ((momentsD M n).f
        fun i => fin (v i))) ((neffD.andThen (marginalD Nobs)).vjp ((Diff.par .log .log).f ((varD n).f ((momentsD M n).f
        fun i => fin (v i)))) fun _ => fin ct))) = _
      rw [e1, e2, e3, margTail_vjp, e4, varD_vjp n hN.ne', e5, hE _ hvar']
      funext i
      refine congrArg fin ?_
      simp only [unit, Bool.false_eq_true, if_false, relVarD, ← hSd, ← hQd]
      field_simp
      linear_combination (ct * (3 + Nobs)) * hv3
    · have e1 : (momentsLogD M n).f (fun i => F.log (fin (v i))) = Sum.elim (fun _ => fin (Real.log (S / n))) fun _ => fin (Q / (n : ℝ) ^ 2) := by
        funext u
        rcases u with u | u
        · simp only [momentsLogD, Diff.pair, Diff.andThen, Diff.subC, Sum.elim_inl, show ∀ (a : Fin M → F) (u : Unit), lseD.f a u = logsumexp a from
            fun _ _ => rfl, logsumexp_log v hv, ← hSd, log_fin hS, log_fin hN, sub_fin, Real.log_div hS.ne' hN.ne']
        · simp only [momentsLogD, Diff.pair, Diff.andThen, Diff.sum, Diff.divC, Diff.exp, Diff.sq, Sum.elim_inr, fun i => exp_log_nonneg (hv i), sq_fin,
            sum_fin, div_fin hn2, hQ']
      have hlog : Real.exp (Real.log (S / n)) = S / n := Real.exp_log hmu
      have e2 : (varLogD n).f (Sum.elim (fun _ => fin (Real.log (S / n))) fun _ => fin (Q / (n : ℝ) ^ 2)) =
          Sum.elim (fun _ => fin (Real.log (S / n))) fun _ => fin vr := by
        simp only [varLogD, Diff.pair, Diff.andThen, Diff.sub, Diff.divC, Diff.sq, Diff.exp, Diff.fst, Diff.snd, Sum.elim_inl, Sum.elim_inr, exp_fin,
          hlog, sq_fin, div_fin hN.ne', sub_fin, hvr]
      have e3 : (Diff.pair .fst (.andThen .snd .log) : Diff (Unit ⊕ Unit) (Unit ⊕ Unit)).f (Sum.elim (fun _ => fin (Real.log (S / n))) fun _ => fin vr) =
          Sum.elim (fun _ => fin (Real.log (S / n))) fun _ => fin (Real.log vr) := by
        simp only [Diff.pair, Diff.andThen, Diff.fst, Diff.snd, Diff.log, Sum.elim_inl, Sum.elim_inr, log_fin hvar']
      have e4 : ∀ a b : ℝ, (Diff.pair .fst (.andThen .snd .log) : Diff (Unit ⊕ Unit) (Unit ⊕ Unit)).vjp
          (Sum.elim (fun _ => fin (Real.log (S / n))) fun _ => fin vr)
          (Sum.elim (fun _ => fin a) fun _ => fin b) = Sum.elim (fun _ => fin a) fun _ => fin (b / vr) := fun a b => by
        funext u
        rcases u with u | u <;>
          simp [Diff.pair, Diff.andThen, Diff.fst, Diff.snd, Diff.log, div_fin hvar'.ne']
      have e5 : ∀ a b : ℝ, (momentsLogD M n).vjp (fun i => F.log (fin (v i))) (Sum.elim (fun _ => fin a) fun _ => fin b) =
          fun i => fin (a * (v i / S) + b / (n : ℝ) ^ 2 * (2 * v i) * v i) := fun a b => by
        funext i
        simp only [momentsLogD, Diff.pair, Diff.andThen, Diff.subC, Diff.sum, Diff.divC, Diff.sq, Diff.exp, Sum.elim_inl, Sum.elim_inr, ofNat_def,
          fun i => exp_log_nonneg (hv i), lseD_vjp v hv hS, mul_fin, add_fin, div_fin hn2, ← hSd]
      simp only [detectionD, if_true, encode]
      change (momentsLogD M n).vjp _ ((varLogD n).vjp ((momentsLogD M n).f fun i => F.log (fin (v i))) ((Diff.pair .fst (.andThen .snd .log)).vjp
        ((varLogD n).f ((momentsLogD M n).f fun i => F.log (fin (v i)))) ((neffD.andThen (marginalD Nobs)).vjp
        ((Diff.pair .fst (.andThen .snd .log)).f ((varLogD n).f ((momentsLogD M n).f fun i => F.log (fin (v i))))) fun _ => fin ct))) = _
      rw [e1, e2, e3, margTail_vjp, e4, varLogD_vjp n hN.ne', e5, hE _ hvar', hlog]
      funext i
      refine congrArg fin ?_
      simp only [unit, if_true, relVarD, ← hSd, ← hQd]
      field_simp
      linear_combination (ct * v i * (3 + Nobs)) * hv3

/-- where no cut fires and the likelihood is finite, the cotangent 1 reaches the log Bayes factors and `-Nobs` the log detection efficiency -/
theorem likelihoodGrad_noCut {E N M : ℕ} (fl : Flags) (pe : Fin E → Fin N → F) (inj : Fin M → F) (Ninj Nobs : ℕ) (s b : ℝ)
    (h1 : ¬ (fl.min_neff_cut = true ∧ le (F.exp (minF fun e => F.nanToNum ((per_event_log_bayes_factors pe fl.log).2.1 e))) (fin Nobs)))
    (h2 : ¬ (fl.max_variance_cut = true ∧ ¬ le (fin ((Nobs : ℝ) ^ 2) * (detection_efficiency inj Ninj fl.log).2.2 +
      ∑ e, (per_event_log_bayes_factors pe fl.log).2.2 e) 1))
    (h3 : ¬ (fl.min_neff_cut = true ∧ ¬ ge (detection_efficiency inj Ninj fl.log).2.1 (F.log (fin (4 * Nobs)))))
    (hs : (logDetEffD fl M Ninj Nobs).f inj () = fin s) (hb : ∑ e, (per_event_log_bayes_factors pe fl.log).1 e = fin b) :
    likelihoodGrad fl pe inj Ninj Nobs =
      Sum.elim ((perEventD E N fl.log).vjp (fun ej => pe ej.1 ej.2) fun _ => fin 1) ((logDetEffD fl M Ninj Nobs).vjp inj fun _ => fin (-Nobs)) := by
  have hsel : (selectionD fl M Ninj Nobs (¬ ge (detection_efficiency inj Ninj fl.log).2.1 (F.log (fin (4 * Nobs))))).f inj () = fin (-Nobs * s) := by
    simp only [selectionD, Diff.andThen, Diff.orElse, Diff.frozen, Diff.scale, if_neg h3, hs, isinf_fin, if_false, neg_fin, mul_fin]
  have hsv : ∀ ct, (selectionD fl M Ninj Nobs (¬ ge (detection_efficiency inj Ninj fl.log).2.1 (F.log (fin (4 * Nobs))))).vjp inj ct =
      (logDetEffD fl M Ninj Nobs).vjp inj fun u => ct u * -fin Nobs := by
    intro ct
    simp only [selectionD, Diff.andThen, Diff.orElse, Diff.frozen, Diff.scale, if_neg h3, hs, isinf_fin, if_false]
  rw [one_def] at h2
  unfold likelihoodGrad likelihoodD
  simp only [Diff.frozen, Diff.andThen, Diff.orElse, Diff.par, Diff.add, Diff.sum, Diff.nanToNum, Sum.elim_inl, Sum.elim_inr, hsel, hsv,
    perEventD_f, hb, add_fin, isnan_fin, isfinite_fin, if_true, if_false, one_def]
  congr 2 <;> funext _
  · exact (if_neg h1).trans (if_neg h2)
  · refine (congrArg (· * -fin (Nobs : ℝ)) ((if_neg h1).trans (if_neg h2))).trans ?_
    simp only [neg_fin, mul_fin, one_mul]

theorem likelihoodGrad_value {E N M : ℕ} (fl : Flags) (w : Fin E → Fin N → ℝ) (v : Fin M → ℝ) (n Nobs : ℕ) (hE : 0 < E) (hN : 1 ≤ Nobs)
    (hw : ∀ e i, 0 ≤ w e i) (hwp : ∀ e, ∃ i, 0 < w e i) (hv0 : ∀ i, 0 ≤ v i) (hvp : ∃ i, 0 < v i) (hMn : M ≤ n)
    (hneff : fl.min_neff_cut = true → (∀ e, (Nobs : ℝ) < kish (w e)) ∧ 4 * (Nobs : ℝ) * relVar v n ≤ 1)
    (hvar : fl.max_variance_cut = true → (Nobs : ℝ) ^ 2 * (relVar v n - 1 / n) + ∑ e, (1 / kish (w e) - 1 / N) ≤ 1)
    (hr : fl.marginalize_selection = true → 0 < relVar v n) :
    likelihoodGrad fl (fun e i => encode fl.log (w e i)) (fun i => encode fl.log (v i)) n Nobs = fun k => fin (Sum.elim
      (fun ej => unit fl.log (w ej.1 ej.2) * (1 / ∑ j, w ej.1 j))
      (fun i => unit fl.log (v i) * (-Nobs * (1 / (∑ j, v j) - if fl.marginalize_selection then (3 + Nobs) / 2 * relVarD v i else 0))) k) := by
  have hb := C40_value w hw hwp fl.log
  have hd := detection_efficiency_value hMn v hv0 hvp fl.log
  have hrv0 := relVar_nonneg hMn v hv0 hvp
  have hNr : (1 : ℝ) ≤ Nobs := by exact_mod_cast hN
  have hn : 0 < n := (card_pos_of hvp).trans_le hMn
  have hs : ∃ s : ℝ, (logDetEffD fl M n Nobs).f (fun i => encode fl.log (v i)) () = fin s := by
    unfold logDetEffD
    cases hm : fl.marginalize_selection
    · simp only [Bool.false_eq_true, if_false, logmuD_f, hd]; exact ⟨_, rfl⟩
    · have hrv := hr hm
      obtain ⟨a, b⟩ := detectionD_f n fl.log fun i => encode fl.log (v i)
      rw [hd] at a b
      simp only [if_neg hrv.ne'] at b
      simp only [if_true]
      change ∃ s : ℝ, (marginalD Nobs).f ((detectionD M n fl.log).f fun i => encode fl.log (v i)) () = fin s
      simp only [marginalD, Diff.andThen, Diff.pair, Diff.sub, Diff.fst, Diff.snd, Diff.exp, Diff.scale, Diff.cDiv, Sum.elim_inl, Sum.elim_inr, a, b, ofNat_def,
        exp_fin, mul_fin, div_fin (mul_pos two_pos (Real.exp_pos _)).ne', sub_fin]
      exact ⟨_, rfl⟩
  obtain ⟨s, hs⟩ := hs
  rw [likelihoodGrad_noCut fl _ _ n Nobs s (∑ e, Real.log (mean (w e))) ?_ ?_ ?_ hs (by rw [hb]; simp)]
  · rw [perEventD_vjp fl.log w hw hwp, logDetEffD_vjp fl v hv0 hvp hn hr]
    funext k
    rcases k with k | k <;> rfl
  · rintro ⟨hc, h⟩
    rw [hb] at h
    simp only [nanToNum_fin] at h
    obtain ⟨m, h1, _, e0, h3⟩ := minF_real (fun e => Real.log (kish (w e))) hE
    have hk := (hneff hc).1 e0
    rw [show (minF fun e => fin (Real.log (kish (w e)))) = fin m from h1, exp_fin, le_fin, ← h3, Real.exp_log (by linarith)] at h
    exact absurd hk (not_lt.2 h)
  · rintro ⟨hc, h⟩
    rw [hb, hd] at h
    simp only [sum_fin, mul_fin, add_fin, one_def, le_fin] at h
    exact h (hvar hc)
  · rintro ⟨hc, h⟩
    rw [hd] at h
    have h4 := (hneff hc).2
    refine h ?_
    by_cases h0 : relVar v n = 0
    · simp only [if_pos h0]; rw [log_fin (by linarith)]; trivial
    · have hrv : 0 < relVar v n := lt_of_le_of_ne hrv0 (Ne.symm h0)
      simp only [if_neg h0]
      rw [log_fin (by linarith), ge_fin, ← Real.log_inv]
      refine Real.log_le_log (by linarith) ?_
      rw [← one_div, le_div_iff₀ hrv]
      exact h4

/-! ## Specification -/

/-- `x'` is the derivative at `θ` of an entry of a weight array with weight `w`: of the weight, or with log weights of its logarithm.  A log weight that is
`-inf` near `θ` (a sample outside a truncated density) may have any `x'`. -/
def EntryDeriv (log : Bool) (w : V → ℝ) (x' : V →L[ℝ] ℝ) (θ : V) : Prop :=
  if log then ((∀ᶠ t in 𝓝 θ, 0 < w t) ∧ HasFDerivAt (fun t => Real.log (w t)) x' θ) ∨ ∀ᶠ t in 𝓝 θ, w t = 0
  else HasFDerivAt w x' θ

theorem EntryDeriv.weight {log : Bool} {w : V → ℝ} {x' : V →L[ℝ] ℝ} {θ : V} (h : EntryDeriv log w x' θ) :
    HasFDerivAt w (unit log (w θ) • x') θ := by
  cases log
  · simpa [EntryDeriv, unit] using h
  · simp only [EntryDeriv, if_true, unit] at h ⊢
    rcases h with ⟨h1, h2⟩ | h
    · have h3 := h2.exp
      rw [Real.exp_log h1.self_of_nhds] at h3
      refine h3.congr_of_eventuallyEq ?_
      filter_upwards [h1] with t ht
      exact (Real.exp_log ht).symm
    · rw [h.self_of_nhds, zero_smul]
      refine (hasFDerivAt_const (0 : ℝ) θ).congr_of_eventuallyEq ?_
      filter_upwards [h] with t ht
      exact ht

theorem relVar_hasFDerivAt {M : ℕ} (v : V → Fin M → ℝ) (v' : Fin M → V →L[ℝ] ℝ) (n : ℕ) (θ : V) (cv : ∀ i, HasFDerivAt (fun t => v t i) (v' i) θ)
    (hs : 0 < ∑ i, v θ i) : HasFDerivAt (fun t => relVar (v t) n) (∑ i, relVarD (v θ) i • v' i) θ := by
  have h1 : HasFDerivAt (fun t => ∑ i, v t i) (∑ i, v' i) θ := HasFDerivAt.fun_sum fun i _ => cv i
  have h2 : HasFDerivAt (fun t => ∑ i, v t i ^ 2) (∑ i, (2 * v θ i) • v' i) θ := HasFDerivAt.fun_sum fun i _ => by
    simpa using (cv i).pow 2
  have h3 := ((h2.mul (((hasDerivAt_pow 2 (∑ i, v θ i)).fun_inv (pow_pos hs 2).ne').comp_hasFDerivAt θ h1)).sub_const (1 / (n : ℝ)))
  unfold relVar
  simp only [div_eq_mul_inv]
  simp only [div_eq_mul_inv] at h3
  refine h3.congr_fderiv ?_
  ext u
  simp only [relVarD, ContinuousLinearMap.smul_apply, ContinuousLinearMap.add_apply, ContinuousLinearMap.sum_apply, smul_eq_mul, Function.comp_apply,
    sub_mul, Finset.sum_sub_distrib, Finset.mul_sum]
  rw [add_comm, sub_eq_add_neg, ← Finset.sum_neg_distrib]
  congr 1
  · refine Finset.sum_congr rfl fun i _ => ?_
    field_simp
  · refine Finset.sum_congr rfl fun i _ => ?_
    rw [← Finset.mul_sum]
    push_cast
    field_simp

/-- **C125**.  Where no cut fires (nor is met with equality), the gradient that automatic differentiation returns for the log likelihood is finite in every
entry and is its derivative: with the derivatives `w'`, `v'` of the entries of the two weight arrays in the hyper-parameters, the chain rule gives the
derivative of what the run contributes.  Samples and injections of weight zero (log weight `-inf`) are allowed. -/
theorem C125_gradient {E N M : ℕ} (fl : Flags) (w : V → Fin E → Fin N → ℝ) (v : V → Fin M → ℝ) (n Nobs : ℕ) (Tobs : F) (hv : Option F)
    (unscaled : F) (hfl : fl.ok) (hhv : fl.reconstruct_rate = true → hv ≠ none) (hE : 0 < E) (hN : 1 ≤ Nobs) (hMn : M ≤ n) (θ : V)
    (w' : Fin E → Fin N → V →L[ℝ] ℝ) (v' : Fin M → V →L[ℝ] ℝ)
    (cw : ∀ e i, EntryDeriv fl.log (fun t => w t e i) (w' e i) θ) (cv : ∀ i, EntryDeriv fl.log (fun t => v t i) (v' i) θ)
    (hw : ∀ᶠ t in 𝓝 θ, ∀ e i, 0 ≤ w t e i) (hwp : ∀ e, ∃ i, 0 < w θ e i) (hv0 : ∀ᶠ t in 𝓝 θ, ∀ i, 0 ≤ v t i) (hvp : ∃ i, 0 < v θ i)
    (hneff : fl.min_neff_cut = true → (∀ e, (Nobs : ℝ) < kish (w θ e)) ∧ 4 * (Nobs : ℝ) * relVar (v θ) n < 1)
    (hvar : fl.max_variance_cut = true → (Nobs : ℝ) ^ 2 * (relVar (v θ) n - 1 / n) + ∑ e, (1 / kish (w θ e) - 1 / N) < 1)
    (hr : fl.marginalize_selection = true → 0 < relVar (v θ) n) :
    ∃ (L : V → ℝ) (g : Fin E × Fin N ⊕ Fin M → ℝ),
      (∀ᶠ t in 𝓝 θ, factors (hierarchical_likelihood fl (.single fun e i => encode fl.log (w t e i)) (fun i => encode fl.log (v t i)) n Nobs
        Tobs hv unscaled none).1 = [fin (L t)]) ∧
      (likelihoodGrad fl (fun e i => encode fl.log (w θ e i)) (fun i => encode fl.log (v θ i)) n Nobs = fun k => fin (g k)) ∧
      HasFDerivAt L (∑ e, ∑ i, g (.inl (e, i)) • w' e i + ∑ i, g (.inr i) • v' i) θ := by
  have dw := fun e i => (cw e i).weight
  have dv := fun i => (cv i).weight
  have sv : 0 < ∑ i, v θ i := (sum_pos_of hv0.self_of_nhds hvp).1
  have sw : ∀ e, 0 < ∑ i, w θ e i := fun e => (sum_pos_of (hw.self_of_nhds e) (hwp e)).1
  have hn0 : (0:ℝ) < n := by exact_mod_cast (card_pos_of hvp).trans_le hMn
  have hN0 : ∀ e : Fin E, (0:ℝ) < N := fun e => by exact_mod_cast card_pos_of (hwp e)
  refine ⟨fun t => plainLogL fl (w t) (v t) n Nobs, _, plainLogL_eventually fl w v n Nobs Tobs hv unscaled hfl hhv hE hN hMn θ
    (fun e i => (dw e i).continuousAt) (fun i => (dv i).continuousAt) hw hwp hv0 hvp hneff hvar,
    likelihoodGrad_value fl (w θ) (v θ) n Nobs hE hN hw.self_of_nhds hwp hv0.self_of_nhds hvp hMn
      (fun h => ⟨(hneff h).1, (hneff h).2.le⟩) (fun h => (hvar h).le) hr, ?_⟩
  unfold plainLogL mean
  have key : ∀ {m : ℕ} (f : V → Fin m → ℝ) (f' : Fin m → V →L[ℝ] ℝ) (c : ℝ), 0 < c → (∀ i, HasFDerivAt (fun t => f t i) (f' i) θ) → 0 < ∑ i, f θ i →
      HasFDerivAt (fun t => Real.log ((∑ i, f t i) / c)) ((∑ i, f θ i)⁻¹ • ∑ i, f' i) θ := by
    intro m f f' c hc hf hs
    have h1 : HasFDerivAt (fun t => ∑ i, f t i) (∑ i, f' i) θ := HasFDerivAt.fun_sum fun i _ => hf i
    have h2 := (h1.log hs.ne').sub_const (Real.log c)
    refine h2.congr_of_eventuallyEq ?_
    filter_upwards [h1.continuousAt.eventually (lt_mem_nhds hs)] with t ht
    rw [Real.log_div (ne_of_gt ht) hc.ne']
  have h3 : HasFDerivAt (fun t => if fl.marginalize_selection = true then (Nobs : ℝ) * (3 + Nobs) / 2 * relVar (v t) n else 0)
      (if fl.marginalize_selection = true then ((Nobs : ℝ) * (3 + Nobs) / 2) • ∑ i, relVarD (v θ) i • unit fl.log (v θ i) • v' i else 0) θ := by
    cases fl.marginalize_selection
    · simpa using hasFDerivAt_const (0 : ℝ) θ
    · simpa using (relVar_hasFDerivAt v _ n θ dv sv).const_mul ((Nobs : ℝ) * (3 + Nobs) / 2)
  refine (((HasFDerivAt.fun_sum fun e _ => key (fun t => w t e) _ N (hN0 e) (dw e) (sw e)).sub
    ((key v _ n hn0 dv sv).const_mul _)).add h3).congr_fderiv ?_
  ext u
  simp only [ContinuousLinearMap.add_apply, ContinuousLinearMap.sub_apply, ContinuousLinearMap.sum_apply, ContinuousLinearMap.smul_apply, smul_eq_mul,
    Sum.elim_inl, Sum.elim_inr]
  rw [sub_add_eq_add_sub, add_sub_assoc]
  congr 1
  · refine Finset.sum_congr rfl fun e _ => ?_
    rw [Finset.mul_sum]
    exact Finset.sum_congr rfl fun i _ => by rw [one_div]; ring
  · cases fl.marginalize_selection
    · simp only [Bool.false_eq_true, if_false, ContinuousLinearMap.zero_apply, zero_sub, sub_zero, Finset.mul_sum, ← Finset.sum_neg_distrib]
      exact Finset.sum_congr rfl fun i _ => by rw [one_div]; ring
    · simp only [if_true, ContinuousLinearMap.sum_apply, ContinuousLinearMap.smul_apply, smul_eq_mul, Finset.mul_sum, ← Finset.sum_sub_distrib]
      exact Finset.sum_congr rfl fun i _ => by rw [one_div]; ring

/-! ### products of truncated densities -/

theorem one_mulF (a : F) : 1 * a = a := by
  rw [one_def]
  cases a
  · rw [mul_fin, one_mul]
  · rw [fin_mul_pinf]; simp [infOfSign]
  · rw [fin_mul_ninf]; simp [infOfSign]
  · rfl

theorem zero_div_zero_nan : (fin 0 / fin 0 : F) = nan := by
  change (if (0 : ℝ) = 0 then infOfSign 0 else _) = nan
  simp

theorem productGrad_eq {E N M : ℕ} (fl : Flags) (p q : Fin E → Fin N → ℝ) (v : Fin M → ℝ) (n Nobs : ℕ) :
    productGrad fl (fun e i => fin (p e i)) (fun e i => fin (q e i)) (fun i => encode fl.log (v i)) n Nobs =
    Sum.elim ((productD fl.log).vjp (Sum.elim (fun ej => fin (p ej.1 ej.2)) fun ej => fin (q ej.1 ej.2)) fun ej =>
        likelihoodGrad fl (fun e i => encode fl.log (p e i * q e i)) (fun i => encode fl.log (v i)) n Nobs (.inl ej))
      fun i => likelihoodGrad fl (fun e i => encode fl.log (p e i * q e i)) (fun i => encode fl.log (v i)) n Nobs (.inr i) * 1 := by
  have h : (Diff.par (productD fl.log) (.scale 1)).f (Sum.elim (Sum.elim (fun ej : Fin E × Fin N => fin (p ej.1 ej.2)) fun ej => fin (q ej.1 ej.2))
      fun i => encode fl.log (v i)) = Sum.elim (fun ej => encode fl.log (p ej.1 ej.2 * q ej.1 ej.2)) fun i => encode fl.log (v i) := by
    funext k
    rcases k with k | k
    · cases fl.log <;> rfl
    · change 1 * encode fl.log (v k) = _
      exact one_mulF _
  unfold productGrad likelihoodGrad
  change (Diff.par (productD fl.log) (.scale 1)).vjp _ ((likelihoodD fl E N M n Nobs).vjp ((Diff.par (productD fl.log) (.scale 1)).f _) _) = _
  rw [h]
  rfl

/-- with plain weights the gradient in each density is finite, also at the samples where the other density vanishes -/
theorem C125_truncated_plain {E N M : ℕ} (fl : Flags) (hlog : fl.log = false) (p q : Fin E → Fin N → ℝ) (v : Fin M → ℝ) (n Nobs : ℕ) (hE : 0 < E)
    (hN : 1 ≤ Nobs) (hp : ∀ e i, 0 ≤ p e i) (hq : ∀ e i, 0 ≤ q e i) (hwp : ∀ e, ∃ i, 0 < p e i * q e i) (hv0 : ∀ i, 0 ≤ v i) (hvp : ∃ i, 0 < v i)
    (hMn : M ≤ n)
    (hneff : fl.min_neff_cut = true → (∀ e, (Nobs : ℝ) < kish fun i => p e i * q e i) ∧ 4 * (Nobs : ℝ) * relVar v n ≤ 1)
    (hvar : fl.max_variance_cut = true → (Nobs : ℝ) ^ 2 * (relVar v n - 1 / n) + ∑ e, (1 / kish (fun i => p e i * q e i) - 1 / N) ≤ 1)
    (hr : fl.marginalize_selection = true → 0 < relVar v n) (e : Fin E) (i : Fin N) :
    let g := productGrad fl (fun e i => fin (p e i)) (fun e i => fin (q e i)) (fun i => encode fl.log (v i)) n Nobs
    g (.inl (.inl (e, i))) = fin (q e i / ∑ j, p e j * q e j) ∧ g (.inl (.inr (e, i))) = fin (p e i / ∑ j, p e j * q e j) := by
  intro g
  have hg : g = _ := productGrad_eq fl p q v n Nobs
  rw [hg, likelihoodGrad_value fl (fun e i => p e i * q e i) v n Nobs hE hN (fun e i => mul_nonneg (hp e i) (hq e i)) hwp hv0 hvp hMn hneff hvar hr]
  simp only [productD, hlog, Bool.false_eq_true, if_false, Diff.mul, Sum.elim_inl, Sum.elim_inr, unit, mul_fin]
  exact ⟨congrArg fin (by ring), congrArg fin (by ring)⟩

/-- **C125, refuted for log weights taken of a product of densities**: at a sample outside the range of one density (`p = 0`) the log likelihood is
finite, but its gradient in both densities is NaN, whatever the flags: the cotangent of that log weight is 0 and is divided by the weight 0. -/
theorem C125_truncated_log_fails {E N M : ℕ} (fl : Flags) (hlog : fl.log = true) (p q : Fin E → Fin N → ℝ) (v : Fin M → ℝ) (n Nobs : ℕ)
    (Tobs : F) (hv : Option F) (unscaled : F) (hfl : fl.ok) (hhv : fl.reconstruct_rate = true → hv ≠ none) (hE : 0 < E)
    (hN : 1 ≤ Nobs) (hp : ∀ e i, 0 ≤ p e i) (hq : ∀ e i, 0 ≤ q e i) (hwp : ∀ e, ∃ i, 0 < p e i * q e i) (hv0 : ∀ i, 0 ≤ v i) (hvp : ∃ i, 0 < v i)
    (hMn : M ≤ n)
    (hneff : fl.min_neff_cut = true → (∀ e, (Nobs : ℝ) < kish fun i => p e i * q e i) ∧ 4 * (Nobs : ℝ) * relVar v n ≤ 1)
    (hvar : fl.max_variance_cut = true → (Nobs : ℝ) ^ 2 * (relVar v n - 1 / n) + ∑ e, (1 / kish (fun i => p e i * q e i) - 1 / N) ≤ 1)
    (hr : fl.marginalize_selection = true → 0 < relVar v n) (e : Fin E) (i : Fin N) (h0 : p e i = 0) :
    (∃ L : ℝ, factors (hierarchical_likelihood fl (.single fun e i => F.log (fin (p e i) * fin (q e i))) (fun i => F.log (fin (v i))) n Nobs
      Tobs hv unscaled none).1 = [fin L]) ∧
    let g := productGrad fl (fun e i => fin (p e i)) (fun e i => fin (q e i)) (fun i => F.log (fin (v i))) n Nobs
    g (.inl (.inl (e, i))) = nan ∧ g (.inl (.inr (e, i))) = nan := by
  have h := C47_value fl (fun e i => p e i * q e i) v n Nobs Tobs hv unscaled none hfl hhv hE hN (fun e i => mul_nonneg (hp e i) (hq e i)) hwp hv0 hvp hMn
    hneff hvar
  have hg := productGrad_eq fl p q v n Nobs
  simp only [encode, hlog, if_true] at h hg
  refine ⟨⟨_, h⟩, ?_⟩
  have hl := likelihoodGrad_value fl (fun e i => p e i * q e i) v n Nobs hE hN (fun e i => mul_nonneg (hp e i) (hq e i)) hwp hv0 hvp hMn
    hneff hvar hr
  simp only [encode, hlog, if_true] at hl
  simp only [hg, hl, productD, if_true, Diff.mul, Diff.log, Diff.andThen, Sum.elim_inl, Sum.elim_inr, unit, mul_fin, h0, zero_mul]
  rw [zero_div_zero_nan]
  exact ⟨rfl, rfl⟩

/-! ### the cuts and events without support -/

/-- **C125**: where a cut on the effective number of samples or on the variance fires, the gradient is exactly zero in every entry: a sampler that
starts there gets no direction back. -/
theorem C125_cut_flat {E N M : ℕ} (fl : Flags) (w : Fin E → Fin N → ℝ) (v : Fin M → ℝ) (n Nobs : ℕ)
    (hw : ∀ e i, 0 ≤ w e i) (hwp : ∀ e, ∃ i, 0 < w e i) (hv0 : ∀ i, 0 ≤ v i) (hvp : ∃ i, 0 < v i) (hMn : M ≤ n)
    (hr : fl.marginalize_selection = true → 0 < relVar v n)
    (hcut : (fl.min_neff_cut = true ∧ ∃ e, kish (w e) ≤ Nobs) ∨
      fl.max_variance_cut = true ∧ 1 < (Nobs : ℝ) ^ 2 * (relVar v n - 1 / n) + ∑ e, (1 / kish (w e) - 1 / N))
    (k : Fin E × Fin N ⊕ Fin M) :
    likelihoodGrad fl (fun e i => encode fl.log (w e i)) (fun i => encode fl.log (v i)) n Nobs k = fin 0 := by
  have hb := C40_value w hw hwp fl.log
  have hd := detection_efficiency_value hMn v hv0 hvp fl.log
  have hn : 0 < n := (card_pos_of hvp).trans_le hMn
  have hc : (fl.min_neff_cut = true ∧ le (F.exp (minF fun e => F.nanToNum ((per_event_log_bayes_factors (fun e i => encode fl.log (w e i)) fl.log).2.1 e)))
      (fin Nobs)) ∨ (fl.max_variance_cut = true ∧ ¬ le (fin ((Nobs : ℝ) ^ 2) * (detection_efficiency (fun i => encode fl.log (v i)) n fl.log).2.2 +
      ∑ e, (per_event_log_bayes_factors (fun e i => encode fl.log (w e i)) fl.log).2.2 e) (fin 1)) := by
    rcases hcut with ⟨h1, e, h2⟩ | ⟨h1, h2⟩
    · refine Or.inl ⟨h1, ?_⟩
      rw [hb]
      simp only [nanToNum_fin]
      obtain ⟨m, a, b, _⟩ := minF_real (fun e => Real.log (kish (w e))) e.pos
      rw [show (minF fun e => fin (Real.log (kish (w e)))) = fin m from a, exp_fin, le_fin]
      refine le_trans (Real.exp_le_exp.2 (b e)) ?_
      rw [Real.exp_log]
      · exact h2
      · obtain ⟨s1, s2⟩ := sum_pos_of (hw e) (hwp e)
        exact div_pos (pow_pos s1 2) s2
    · refine Or.inr ⟨h1, ?_⟩
      rw [hb, hd]
      simp only [sum_fin, mul_fin, add_fin, le_fin]
      exact not_le.2 h2
  have hin : ∀ (y : Unit → F), (((Diff.nanToNum.andThen (.orElse (fun a => isnan (y a)) (F.nanToNum ninf))) : Diff Unit Unit)).vjp y (fun _ => fin 0) =
      fun _ => fin 0 := by
    intro y
    funext u
    simp only [Diff.andThen, Diff.nanToNum, Diff.orElse, zero_def, ite_self]
  have hz : ∀ ct : Unit → F, ct = (fun _ => fin 0) → ((Diff.par ((perEventD E N fl.log).andThen .sum) (selectionD fl M n Nobs
      (¬ ge (detection_efficiency (fun i => encode fl.log (v i)) n fl.log).2.1 (F.log (fin (4 * Nobs)))))).andThen .add).vjp
      (Sum.elim (fun ej => encode fl.log (w ej.1 ej.2)) fun i => encode fl.log (v i)) ct k = fin 0 := by
    rintro _ rfl
    have h1 := perEventD_vjp fl.log w hw hwp fun _ => 0
    have h2 := logDetEffD_vjp (Nobs := Nobs) fl v hv0 hvp hn hr 0
    rcases k with k | k
    · simp only [Diff.par, Diff.andThen, Diff.sum, Diff.add, Sum.elim_inl, Sum.elim_inr, h1]
      exact congrArg fin (by ring)
    · have h3 : (fin 0 * -fin (Nobs : ℝ) : F) = fin 0 := by rw [neg_fin, mul_fin, zero_mul]
      have h4 : ∀ P : Prop, (selectionD fl M n Nobs P).vjp (fun i => encode fl.log (v i)) (fun _ => fin 0) =
          (logDetEffD fl M n Nobs).vjp (fun i => encode fl.log (v i)) fun _ => fin 0 := by
        intro P
        unfold selectionD
        simp only [Diff.andThen, Diff.frozen, Diff.orElse, Diff.scale]
        congr 1
        funext a
        split_ifs <;> first | rfl | exact h3
      simp only [Diff.par, Diff.andThen, Diff.add, Sum.elim_inr, h4, h2]
      exact congrArg fin (by ring)
  unfold likelihoodGrad likelihoodD
  simp only [Diff.frozen, Diff.andThen, one_def, Sum.elim_inl, Sum.elim_inr]
  refine hz _ ?_
  refine Eq.trans (congrArg _ (congrArg _ ?_)) (hin _)
  simp only [Diff.orElse]
  funext u
  rcases hc with h | h
  · exact if_pos h
  · by_cases h' : fl.min_neff_cut = true ∧ le (F.exp (minF fun e => F.nanToNum ((per_event_log_bayes_factors (fun e i => encode fl.log (w e i))
        fl.log).2.1 e))) (fin Nobs)
    · exact if_pos h'
    · exact (if_neg h').trans (if_pos h)

theorem add_not_finite {a : F} (h : a = ninf ∨ a = nan) (b : F) : a + b = ninf ∨ a + b = nan := by
  rcases h with rfl | rfl <;> cases b <;> simp

/-- weights without support: the pullback of any cotangent zero is NaN -/
theorem perEventD_empty {E N : ℕ} (log : Bool) (pe : Fin E → Fin N → F) (e : Fin E) (i : Fin N) (h0 : ∀ j, pe e j = encode log 0) (ct : Fin E → F)
    (hct : ct e = fin 0) :
    (perEventD E N log).f (fun ej => pe ej.1 ej.2) e = ninf ∧ (perEventD E N log).vjp (fun ej => pe ej.1 ej.2) ct (e, i) = nan := by
  have hN : (0 : ℝ) < N := by exact_mod_cast i.pos
  cases log
  · have hs : (∑ j, pe e j) = fin 0 := by simp only [h0, encode, Bool.false_eq_true, if_false, sum_fin, Finset.sum_const_zero]
    simp only [perEventD, Bool.false_eq_true, if_false, Diff.andThen, Diff.sumRows, Diff.divC, Diff.log, hs, div_fin hN.ne', zero_div, hct,
      zero_div_zero_nan, nan_div, and_true]
    simp [F.log]
  · obtain ⟨m, hm⟩ := lseShift_fin fun j => pe e j
    have hx : ∀ j, F.exp (pe e j - fin m) = fin 0 := by
      intro j
      rw [h0 j]
      simp [encode, F.log, F.exp]
    have hs : (∑ _j : Fin N, (fin 0 : F)) = fin 0 := by simp only [sum_fin, Finset.sum_const_zero]
    simp only [perEventD, if_true, Diff.andThen, Diff.subC, lseRowsD, lseD, Diff.frozen, Diff.exp, Diff.sum, Diff.log, Diff.addC, hm, hx, hs, hct,
      zero_div_zero_nan, nan_mul, and_true]
    rw [show F.log (fin 0) = ninf by simp [F.log], log_fin hN]
    rfl

/-- **C125, refuted at an event without support**: when every sample of an event has weight zero, the run contributes the constant `-BIG`, but the
gradient at that event's samples is NaN (not zero), whatever the flags, the other events and the injections. -/
theorem C125_empty_event_fails {E N M : ℕ} (fl : Flags) (pe : Fin E → Fin N → F) (inj : Fin M → F) (n Nobs : ℕ) (Tobs : F) (hv : Option F)
    (unscaled : F) (hfl : fl.ok) (hhv : fl.reconstruct_rate = true → hv ≠ none) (e : Fin E) (h0 : ∀ j, pe e j = encode fl.log 0) (i : Fin N) :
    factors (hierarchical_likelihood fl (.single pe) inj n Nobs Tobs hv unscaled none).1 = [fin (-BIG)] ∧
    likelihoodGrad fl pe inj n Nobs (.inl (e, i)) = nan := by
  have hb : (∑ e, (per_event_log_bayes_factors pe fl.log).1 e) = ninf ∨ (∑ e, (per_event_log_bayes_factors pe fl.log).1 e) = nan := by
    rw [← Finset.add_sum_erase _ _ (Finset.mem_univ e), ← perEventD_f, (perEventD_empty fl.log pe e i h0 (fun _ => fin 0) rfl).1]
    exact add_not_finite (Or.inl rfl) _
  constructor
  · rw [(hl_factors_samples fl _ _ n Nobs Tobs hv unscaled none hfl hhv).1]
    refine congrArg (fun x => [x]) ?_
    have hl : ∀ s : F, guardedLogL s (∑ e, (per_event_log_bayes_factors pe fl.log).1 e) = fin (-BIG) := by
      intro s
      unfold guardedLogL
      rcases add_not_finite hb s with h | h <;> simp [add_comm s, h, F.nanToNum]
    change likelihoodValue fl pe inj n Nobs = _
    unfold likelihoodValue
    simp only [hl]
    unfold varianceCut neffCut
    dsimp only
    split_ifs <;> rfl
  · unfold likelihoodGrad likelihoodD
    simp only [Diff.frozen, Diff.andThen, Diff.par, Diff.add, Diff.sum, Sum.elim_inl, Sum.elim_inr]
    refine (perEventD_empty fl.log pe e i h0 _ ?_).2
    simp only [Diff.nanToNum]
    refine if_neg ?_
    rcases add_not_finite hb ((selectionD fl M n Nobs (¬ ge (detection_efficiency inj n fl.log).2.1 (F.log (fin (4 * Nobs))))).f inj ()) with h | h
    · simp only [perEventD_f, h]; exact not_isfinite_ninf
    · simp only [perEventD_f, h]; exact not_isfinite_nan

/-! ### concrete cases -/

/-- `C125_gradient` applied: log weights, one event with samples of weight `exp t`, 1 and 0 (outside the range), three of four injections found with
weights `exp t`, 1 and 1, selection uncertainty marginalised, at `t = 0` -/
example : ∃ (L : ℝ → ℝ) (g : Fin 1 × Fin 3 ⊕ Fin 3 → ℝ),
    (∀ᶠ t in 𝓝 0, factors (hierarchical_likelihood { log := true, marginalize_selection := true }
      (.single fun (_ : Fin 1) (i : Fin 3) => encode true (if i = 0 then Real.exp t else if i = 1 then 1 else 0))
      (fun i : Fin 3 => encode true (if i = 0 then Real.exp t else 1)) 4 1 1 (some 1) 1 none).1 = [fin (L t)]) ∧
    HasFDerivAt L (∑ e : Fin 1, ∑ i : Fin 3, g (.inl (e, i)) • (if i = 0 then ContinuousLinearMap.id ℝ ℝ else 0) +
      ∑ i : Fin 3, g (.inr i) • if i = 0 then ContinuousLinearMap.id ℝ ℝ else 0) 0 := by
  have hexp : ∀ t : ℝ, 0 < Real.exp t := Real.exp_pos
  have h := C125_gradient { log := true, marginalize_selection := true }
    (fun (t : ℝ) (_ : Fin 1) (i : Fin 3) => if i = 0 then Real.exp t else if i = 1 then 1 else 0) (fun t (i : Fin 3) => if i = 0 then Real.exp t else 1) 4 1 1
    (some 1) 1 (by simp [Flags.ok]) (by simp) (by norm_num) le_rfl (by norm_num) 0
    (fun _ i => if i = 0 then ContinuousLinearMap.id ℝ ℝ else 0) (fun i => if i = 0 then ContinuousLinearMap.id ℝ ℝ else 0)
    (by
      intro e i
      fin_cases i
      · exact Or.inl ⟨.of_forall fun t => by simpa using hexp t, by
          simp [Real.log_exp]; exact hasFDerivAt_id (𝕜 := ℝ) (0 : ℝ)⟩
      · exact Or.inl ⟨.of_forall fun t => by simp, by simpa using hasFDerivAt_const (𝕜 := ℝ) (0 : ℝ) (0 : ℝ)⟩
      · exact Or.inr (.of_forall fun t => by simp))
    (by
      intro i
      fin_cases i
      · exact Or.inl ⟨.of_forall fun t => by simpa using hexp t, by
          simp [Real.log_exp]; exact hasFDerivAt_id (𝕜 := ℝ) (0 : ℝ)⟩
      · exact Or.inl ⟨.of_forall fun t => by simp, by simpa using hasFDerivAt_const (𝕜 := ℝ) (0 : ℝ) (0 : ℝ)⟩
      · exact Or.inl ⟨.of_forall fun t => by simp, by simpa using hasFDerivAt_const (𝕜 := ℝ) (0 : ℝ) (0 : ℝ)⟩)
    (.of_forall fun t e i => by split_ifs <;> positivity) (fun _ => ⟨0, by simp⟩) (.of_forall fun t i => by split_ifs <;> positivity) ⟨0, by simp⟩
    (fun _ => ⟨fun _ => by simp only [kish, Fin.sum_univ_three]; norm_num [Fin.ext_iff], by simp [relVar]; norm_num⟩) (by simp)
    (fun _ => by simp [relVar]; norm_num)
  obtain ⟨L, g, a, _, c⟩ := h
  exact ⟨L, g, a, c⟩

/-- `C125_truncated_log_fails` applied: three samples, the last outside the range of one density -/
example : (productGrad { log := true } (fun (_ : Fin 1) (i : Fin 3) => fin (if i = 2 then 0 else 1)) (fun _ _ => fin 1) (fun _ : Fin 3 => F.log (fin 1)) 4 1)
    (.inl (.inr (0, 2))) = nan :=
  (C125_truncated_log_fails { log := true } rfl (fun (_ : Fin 1) (i : Fin 3) => if i = 2 then 0 else 1) (fun _ _ => 1) (fun _ : Fin 3 => 1) 4 1 1 (some 1) 1
    (by simp [Flags.ok]) (by simp) (by norm_num) le_rfl (fun e i => by split_ifs <;> norm_num) (fun _ _ => zero_le_one) (fun _ => ⟨0, by simp⟩)
    (fun _ => zero_le_one) ⟨0, one_pos⟩ (by norm_num)
    (fun _ => ⟨fun _ => by simp [kish, Fin.sum_univ_succ]; norm_num, by simp [relVar]; norm_num⟩) (by simp) (by simp) 0 2 (by simp)).2.2

/-- `C125_truncated_plain` applied to the same weights: the gradient there is 0 -/
example : (productGrad {} (fun (_ : Fin 1) (i : Fin 3) => fin (if i = 2 then 0 else 1)) (fun _ _ => fin 1) (fun _ : Fin 3 => encode false 1) 4 1)
    (.inl (.inr (0, 2))) = fin 0 := by
  have h := (C125_truncated_plain {} rfl (fun (_ : Fin 1) (i : Fin 3) => if i = 2 then 0 else 1) (fun _ _ => 1) (fun _ : Fin 3 => 1) 4 1
    (by norm_num) le_rfl (fun e i => by split_ifs <;> norm_num) (fun _ _ => zero_le_one) (fun _ => ⟨0, by simp⟩)
    (fun _ => zero_le_one) ⟨0, one_pos⟩ (by norm_num)
    (fun _ => ⟨fun _ => by simp [kish, Fin.sum_univ_succ]; norm_num, by simp [relVar]; norm_num⟩) (by simp) (by simp) 0 2).2
  rw [h]; simp

/-- `C125_cut_flat` applied: two samples of weights 1 and 0, so one effective sample for one event -/
example (k : Fin 1 × Fin 2 ⊕ Fin 3) :
    likelihoodGrad {} (fun (_ : Fin 1) (i : Fin 2) => encode false (if i = 0 then 1 else 0)) (fun _ : Fin 3 => encode false 1) 4 1 k = fin 0 :=
  C125_cut_flat {} (fun (_ : Fin 1) (i : Fin 2) => if i = 0 then 1 else 0) (fun _ : Fin 3 => 1) 4 1 (fun e i => by split_ifs <;> norm_num)
    (fun _ => ⟨0, by simp⟩) (fun _ => zero_le_one) ⟨0, one_pos⟩ (by norm_num) (by simp) (Or.inl ⟨rfl, 0, by simp [kish]⟩) k

/-- `C125_empty_event_fails` applied: the second of two events has no sample in the range of the model -/
example : likelihoodGrad { log := true } (fun (e : Fin 2) (_ : Fin 3) => if e = 0 then F.log 1 else encode true 0) (fun _ : Fin 3 => F.log 1) 4 2
    (.inl (1, 0)) = nan :=
  (C125_empty_event_fails { log := true } (fun (e : Fin 2) (_ : Fin 3) => if e = 0 then F.log 1 else encode true 0) (fun _ : Fin 3 => F.log 1) 4 2 1 (some 1)
    1 (by simp [Flags.ok]) (by simp) 1 (fun j => by simp) 0).2

end GW
end
