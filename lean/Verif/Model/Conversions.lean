import Mathlib.Analysis.Real.Sqrt
import Mathlib.Tactic.Ring
import Mathlib.Tactic.Linarith

/-!
# Model of `gwinferno/preprocess/conversions.py`

Elementwise on real numbers (finite inputs, non-zero denominators; theorems state the domains).
-/

noncomputable section
namespace GW

/-- conversions.py:8-33 `chieff_from_q_component_spins`. -/
def chieff (q a1 a2 ct1 ct2 : ℝ) : ℝ := (a1 * ct1 + q * a2 * ct2) / (1 + q)

/-- conversions.py:36-62 `chip_from_q_component_spins`. -/
def chip (q a1 a2 ct1 ct2 : ℝ) : ℝ :=
  let sint1 := √(1 - ct1 ^ 2)
  let sint2 := √(1 - ct2 ^ 2)
  max (a1 * sint1) ((3 + 4 * q) / (4 + 3 * q) * q * a2 * sint2)

/-- conversions.py:65-85 `mu_var_from_alpha_beta`. -/
def muVar (alpha beta xmax : ℝ) : ℝ × ℝ :=
  let mu := alpha / (alpha + beta) * xmax
  let var := alpha * beta / ((alpha + beta) ^ 2 * (alpha + beta + 1)) * xmax ^ 2
  (mu, var)

/-- conversions.py:106-110: `alpha_beta_from_mu_var` on one pair of values. -/
def alphaBeta (mu var xmax : ℝ) : ℝ × ℝ :=
  let mu := mu / xmax
  let var := var / xmax ^ 2
  let alpha := (mu ^ 2 * (1 - mu) - mu * var) / var
  let beta := (mu * (1 - mu) ^ 2 - (1 - mu) * var) / var
  (alpha, beta)

/-- conversions.py:88-110 `alpha_beta_from_mu_var` called with arrays: the two returned arrays, and the caller's two arrays
after the call.  `mu /= xmax` writes into a numpy array (`mutable = true`) and rebinds the local name otherwise (Python
floats, JAX arrays).  Simplification: `mu` and `var` are different arrays of the same length. -/
def alphaBetaCall (mutable : Bool) (mu var : List ℝ) (xmax : ℝ) : (List ℝ × List ℝ) × (List ℝ × List ℝ) :=
  let ab := List.zipWith (fun m v => alphaBeta m v xmax) mu var
  ((ab.map Prod.fst, ab.map Prod.snd),
    if mutable then (mu.map (· / xmax), var.map (· / xmax ^ 2)) else (mu, var))

end GW
end
