import Verif.Model.Analysis

/-!
# Model of the likelihood when the number of injections is given as an integer

`detection_efficiency` is compiled (`@partial(jit, static_argnames=["log"])`, analysis.py:91), so its argument `Ninj` becomes a traced value.  A Python or NumPy
integer becomes a 32-bit integer (nothing in the repository switches JAX to 64 bits), and `Ninj**2` (analysis.py:128, 132) is computed in that type, that is modulo
2³².  In all other places (`jnp.log(Ninj)`, `… / Ninj`, `1 / Ninj`) the integer is converted to floating point first.  Given as a float, `Ninj` is the number that
`Verif.Model.Analysis` models.
-/

open Finset
noncomputable section
open Classical
namespace GW
open F

/-- the 32-bit integer a computed integer is stored as: its representative modulo 2³² between −2³¹ and 2³¹ − 1 -/
def int32 (z : ℤ) : ℤ := z.bmod (2 ^ 32)

/-- analysis.py:91-136 `detection_efficiency(weights, Ninj, log)` with a 32-bit integer `Ninj`: as `detection_efficiency`, but `Ninj**2` is a 32-bit integer. -/
def detection_efficiencyInt {M : ℕ} (weights : Fin M → F) (Ninj : ℕ) (log : Bool) : F × F × F :=
  let r : F × F :=
    if log then
      let logmu := logsumexp weights - F.log (fin Ninj)
      let mu := exp logmu
      let var := (∑ i, sq (exp (weights i))) / fin (int32 ((Ninj : ℤ) ^ 2) : ℤ) - sq mu / fin Ninj
      (logmu, 2 * logmu - F.log var)
    else
      let mu := (∑ i, weights i) / fin Ninj
      let var := (∑ i, sq (weights i)) / fin (int32 ((Ninj : ℤ) ^ 2) : ℤ) - sq mu / fin Ninj
      (F.log mu, 2 * F.log mu - F.log var)
  (r.1, r.2, 1 / exp r.2 - 1 / fin Ninj)

/-- analysis.py:139-356 `hierarchical_likelihood` with an integer `total_inj`: the same with the efficiency as just described.  `total_inj` is used nowhere else.
Simplifications: `total_inj` is below 2³¹, no posterior predictive check, one array of weights. -/
def hierarchical_likelihoodInt {E N M : ℕ} (fl : Flags) (pe : Fin E → Fin N → F) (inj : Fin M → F) (total_inj Nobs : ℕ)
    (Tobs : F) (hv : Option F) (unscaled : F) : List Site × Except PyErr (Option F) :=
  if fl.max_variance_cut ∧ (fl.marginalize_selection ∨ fl.min_neff_cut) then ([], .error .valueError)
  else
    let b := per_event_log_bayes_factors pe fl.log
    let logBFs := b.1
    let logn_effs := b.2.1
    let variances := b.2.2
    let d := detection_efficiencyInt inj total_inj fl.log
    let log_det_eff := d.1
    let logn_eff_inj := d.2.1
    let variance := d.2.2
    let t1 : List Site :=
      [.det "log_nEff_inj" [logn_eff_inj], .det "log_nEffs" (List.ofFn logn_effs), .det "logBFs" (List.ofFn logBFs),
       .det "detection_efficiency" [exp log_det_eff], .det "variance_log_BFs" (List.ofFn variances),
       .det "variance_log_detection_efficiency" [variance]]
    match ratePart fl hv Tobs unscaled log_det_eff with
    | .error e => (t1, .error e)
    | .ok rp =>
      let sel := selectionFactor fl Nobs log_det_eff logn_eff_inj
      let sumlogBFs := ∑ e, logBFs e
      let log_l := guardedLogL sel sumlogBFs
      let log_l2 := neffCut fl Nobs logn_effs log_l
      let total_var := fin ((Nobs : ℝ) ^ 2) * variance + ∑ e, variances e
      let log_l3 := varianceCut fl total_var log_l2
      let t2 := t1 ++ rp.1 ++ [.det "selection_factor" [sel], .det "sum_logBFs" [sumlogBFs], .det "log_l" [log_l]]
        ++ (if fl.min_neff_cut then [Site.det "neff_less_Nobs" [log_l2]] else [])
        ++ [.det "variance_log_likelihood" [total_var]]
        ++ (if fl.max_variance_cut then [Site.det "variance_less_1" [log_l3]] else [])
        ++ [.factor "log_likelihood" log_l3]
      (t2, .ok rp.2)

end GW
end
