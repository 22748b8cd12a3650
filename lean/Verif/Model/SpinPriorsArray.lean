import Verif.Model.SpinPriors

/-!
# `chi_effective_prior_from_isotropic_spins` on arrays

`SpinPriors.lean` models the call on one effective spin and one mass ratio.  Here both arguments are one-dimensional arrays, as the docstring
allows; a scalar mass ratio is an array with one entry (both broadcast in the same way).
-/

noncomputable section
open Classical
namespace GW

/-- entry `i` of the mass ratios, broadcast against the effective spins -/
def bcast (qs : List ℝ) (i : ℕ) : ℝ := if qs.length = 1 then qs.getD 0 0 else qs.getD i 0

/-- priors.py:79-196 `chi_effective_prior_from_isotropic_spins(chi_eff, q, a_max)` on arrays, with at most `depth` nested calls.

`caseZ` and `caseF` have the shape of `chi_eff`, the other masks that of `chi_eff` and `q` broadcast together (:102-108); `np.any` of the
list of masks (:183) needs one common shape, so the call raises `ValueError` unless `q` has one entry or as many as `chi_eff`.  The nested
calls (:186-187) get the boundary entries of `chi_eff` but the whole of `q`. -/
def isotropicPriorArr (Di : ℝ → ℝ) : ℕ → List ℝ → List ℝ → ℝ → Except PyErr (List F)
  | 0, _, _, _ => .error .recursionError
  | depth + 1, chi_eff, qs, a_max =>
    let xs := chi_eff.map fun x => |x|
    if qs.length ≠ 1 ∧ qs.length ≠ xs.length then .error .valueError
    else
      let sel : ℕ → Option F := fun i => isoSelect Di (xs.getD i 0) (bcast qs i) a_max
      let boundaries := (List.range xs.length).filter fun i => sel i = none
      if boundaries = [] then .ok ((List.range xs.length).map fun i => (sel i).getD F.nan)
      else do
        let p ← isotropicPriorArr Di depth (boundaries.map fun i => xs.getD i 0 + 1e-6) qs a_max
        let m ← isotropicPriorArr Di depth (boundaries.map fun i => xs.getD i 0 - 1e-6) qs a_max
        .ok ((List.range xs.length).map fun i => match sel i with
          | some v => v
          | none => F.fin 0.5 * (p.getD (boundaries.idxOf i) F.nan + m.getD (boundaries.idxOf i) F.nan))

end GW
end
