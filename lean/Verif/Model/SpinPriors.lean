import Verif.Arr
import Verif.Model.Analysis
import Verif.Model.Conversions
import Mathlib.Analysis.SpecialFunctions.Trigonometric.Inverse
import Mathlib.Analysis.SpecialFunctions.Log.Basic

/-!
# Model of `gwinferno/preprocess/priors.py`

Elementwise, exact real arithmetic.  `np.select` takes the first true condition, `0` (or the given default) if none is.
-/

noncomputable section
open Classical
namespace GW

/-- priors.py:38-76 `chi_effective_prior_from_aligned_spins`. -/
def alignedPrior (chi_eff q a_max : ℝ) : ℝ :=
  let caseA := chi_eff > a_max * (1 - q) / (1 + q) ∧ chi_eff ≤ a_max
  let caseB := chi_eff < -a_max * (1 - q) / (1 + q) ∧ chi_eff ≥ -a_max
  let caseC := chi_eff ≥ -a_max * (1 - q) / (1 + q) ∧ chi_eff ≤ a_max * (1 - q) / (1 + q)
  if caseA then (1 + q) ^ 2 * (a_max - chi_eff) / (4 * q * a_max ^ 2)
  else if caseB then (1 + q) ^ 2 * (a_max + chi_eff) / (4 * q * a_max ^ 2)
  else if caseC then (1 + q) / (2 * a_max)
  else 0

/-- `np.arctanh` on `(-1, 1)` -/
def arctanh (x : ℝ) : ℝ := 1 / 2 * Real.log ((1 + x) / (1 - x))

section iso
/-! `Di` is the real part of `PolyLog[2, x]`, priors.py:20-35; the final `np.real` (priors.py:196) keeps only real parts and every
other term of the selected branch is real. -/
variable (Di : ℝ → ℝ)

/-- priors.py:111 -/
def isoZ (q a : ℝ) : ℝ := (1 + q) / (2 * a) * (2 - Real.log q)

/-- priors.py:113-121 -/
def isoA (x q a : ℝ) : ℝ :=
  (1 + q) / (4 * q * a ^ 2) *
    (q * a * (4 + 2 * Real.log a - Real.log (q ^ 2 * a ^ 2 - (1 + q) ^ 2 * x ^ 2))
      - 2 * (1 + q) * x * arctanh ((1 + q) * x / (q * a))
      + (1 + q) * x * (Di (-q * a / ((1 + q) * x)) - Di (q * a / ((1 + q) * x))))

/-- priors.py:123-133 -/
def isoB (x q a : ℝ) : ℝ :=
  (1 + q) / (4 * q * a ^ 2) *
    (4 * q * a + 2 * q * a * Real.log a
      - 2 * (1 + q) * x * arctanh (q * a / ((1 + q) * x))
      - q * a * Real.log ((1 + q) ^ 2 * x ^ 2 - q ^ 2 * a ^ 2)
      + (1 + q) * x * (Di (-q * a / ((1 + q) * x)) - Di (q * a / ((1 + q) * x))))

/-- priors.py:135-147 -/
def isoC (x q a : ℝ) : ℝ :=
  (1 + q) / (4 * q * a ^ 2) *
    (2 * (1 + q) * (a - x)
      - (1 + q) * x * Real.log a ^ 2
      + (a + (1 + q) * x * Real.log ((1 + q) * x)) * Real.log (q * a / (a - (1 + q) * x))
      - (1 + q) * x * Real.log a * (2 + Real.log q - Real.log (a - (1 + q) * x))
      + q * a * Real.log (a / (q * a - (1 + q) * x))
      + (1 + q) * x * Real.log ((a - (1 + q) * x) * (q * a - (1 + q) * x) / q)
      + (1 + q) * x * (Di (1 - a / ((1 + q) * x)) - Di (q * a / ((1 + q) * x))))

/-- priors.py:149-162; unlike the other branches this one is also used where a logarithm's argument vanishes
(`(1+q)χ = q a`), so it is evaluated in `F`. -/
def isoD (x q a : ℝ) : F :=
  F.fin ((1 + q) / (4 * q * a ^ 2)) *
    (F.fin (-x * Real.log a ^ 2)
      + F.fin (2 * (1 + q) * (a - x))
      + F.fin (q * a) * F.log (F.fin a / F.fin ((1 + q) * x - q * a))
      + F.fin (a * Real.log (q * a / (a - (1 + q) * x)))
      - F.fin (x * Real.log a * (2 * (1 + q) - Real.log ((1 + q) * x) - q * Real.log ((1 + q) * x / a)))
      + F.fin ((1 + q) * x) * F.log (F.fin ((-q * a + (1 + q) * x) * (a - (1 + q) * x) / q))
      + F.fin ((1 + q) * x * Real.log (a / ((1 + q) * x)) * Real.log ((a - (1 + q) * x) / q))
      + F.fin ((1 + q) * x * (Di (1 - a / ((1 + q) * x)) - Di (q * a / ((1 + q) * x)))))

/-- priors.py:164-177 -/
def isoE (x q a : ℝ) : ℝ :=
  (1 + q) / (4 * q * a ^ 2) *
    (2 * (1 + q) * (a - x)
      - (1 + q) * x * Real.log a ^ 2
      + Real.log a * (a - 2 * (1 + q) * x - (1 + q) * x * Real.log (q / ((1 + q) * x - a)))
      - a * Real.log (((1 + q) * x - a) / q)
      + (1 + q) * x * Real.log (((1 + q) * x - a) * ((1 + q) * x - q * a) / q)
      + (1 + q) * x * Real.log ((1 + q) * x) * Real.log (q * a / ((1 + q) * x - a))
      - q * a * Real.log (((1 + q) * x - q * a) / a)
      + (1 + q) * x * (Di (1 - a / ((1 + q) * x)) - Di (q * a / ((1 + q) * x))))

/-- priors.py:102-108, 190-194: the selected branch for a non-negative argument, `none` when no case applies. -/
def isoSelect (x q a : ℝ) : Option F :=
  let caseZ := x = 0
  let caseA := x > 0 ∧ x < a * (1 - q) / (1 + q) ∧ x < q * a / (1 + q)
  let caseB := x < a * (1 - q) / (1 + q) ∧ x > q * a / (1 + q)
  let caseC := x > a * (1 - q) / (1 + q) ∧ x < q * a / (1 + q)
  let caseD := x > a * (1 - q) / (1 + q) ∧ x < a / (1 + q) ∧ x ≥ q * a / (1 + q)
  let caseE := x > a * (1 - q) / (1 + q) ∧ x > a / (1 + q) ∧ x < a
  let caseF := x ≥ a
  if caseZ then some (F.fin (isoZ q a)) else if caseA then some (F.fin (isoA Di x q a)) else if caseB then some (F.fin (isoB Di x q a))
  else if caseC then some (F.fin (isoC Di x q a)) else if caseD then some (isoD Di x q a) else if caseE then some (F.fin (isoE Di x q a))
  else if caseF then some (F.fin 0) else none

/-- priors.py:79-196 `chi_effective_prior_from_isotropic_spins` on one value, with at most `depth` nested calls (Python
raises `RecursionError` beyond its limit).  On an array the call raises iff it raises for some entry. -/
def isotropicPrior : ℕ → ℝ → ℝ → ℝ → Except PyErr F
  | 0, _, _, _ => .error .recursionError
  | depth + 1, chi_eff, q, a_max =>
    let x := |chi_eff|
    match isoSelect Di x q a_max with
    | some v => .ok v
    | none => match isotropicPrior depth (x + 1e-6) q a_max with
      | .error e => .error e
      | .ok p => match isotropicPrior depth (x - 1e-6) q a_max with
        | .error e => .error e
        | .ok m => .ok (F.fin 0.5 * (p + m))

end iso

/-- priors.py:199-244 `chi_p_prior_from_isotropic_spins`. -/
def chipPrior (chi_p q a_max : ℝ) : ℝ :=
  let caseA := chi_p < q * a_max * (3 + 4 * q) / (4 + 3 * q)
  let caseB := chi_p ≥ q * a_max * (3 + 4 * q) / (4 + 3 * q) ∧ chi_p < a_max
  if caseA then
    1 / (a_max ^ 2 * q) * ((4 + 3 * q) / (3 + 4 * q)) *
      (Real.arccos ((4 + 3 * q) * chi_p / ((3 + 4 * q) * q * a_max))
          * (a_max - √(a_max ^ 2 - chi_p ^ 2) + chi_p * Real.arccos (chi_p / a_max))
        + Real.arccos (chi_p / a_max)
          * (a_max * q * (3 + 4 * q) / (4 + 3 * q)
            - √(a_max ^ 2 * q ^ 2 * ((3 + 4 * q) / (4 + 3 * q)) ^ 2 - chi_p ^ 2)
            + chi_p * Real.arccos ((4 + 3 * q) * chi_p / ((3 + 4 * q) * a_max * q))))
  else if caseB then 1 / a_max * Real.arccos (chi_p / a_max)
  else 0

/-! ### the conditional sampler -/

/-- one draw of the component spins: `np.random.random` values in `[0, 1)` -/
structure URow where
  u1 : ℝ
  u2 : ℝ
  u3 : ℝ

/-- one entry of the arrays `a1, a2, cost2` -/
structure SpinRow where
  a1 : ℝ
  a2 : ℝ
  cost2 : ℝ

/-- priors.py:291-295 and 305-307: `random * a_max`, `2 * random - 1`. -/
def mkRow (a_max : ℝ) (u : URow) : SpinRow := ⟨u.u1 * a_max, u.u2 * a_max, 2 * u.u3 - 1⟩

/-- priors.py:299, 308 -/
def cost1 (chi_eff q : ℝ) (r : SpinRow) : F :=
  F.fin (chi_eff * (1 + q) - q * r.a2 * r.cost2) / F.fin r.a1

/-- priors.py:303-304: which entries are redrawn (comparisons with NaN are false) -/
def unphysical (c : F) : Prop := F.lt c (F.fin (-1)) ∨ F.gt c (F.fin 1)

/-- priors.py:304-308: redraw the offending entries, `us i` being the uniforms an offending entry `i` receives. -/
def redraw {n : ℕ} (chi_eff q a_max : ℝ) (us : Fin n → URow) (rows : Fin n → SpinRow) : Fin n → SpinRow := fun i =>
  if unphysical (cost1 chi_eff q (rows i)) then mkRow a_max (us i) else rows i

/-- the rows after `k` rounds of the loop, if the loop has not ended earlier (further rounds change nothing);
`stream k` holds the uniforms of round `k` -/
def rounds {n : ℕ} (chi_eff q a_max : ℝ) (stream : ℕ → Fin n → URow) : ℕ → Fin n → SpinRow
  | 0 => fun i => mkRow a_max (stream 0 i)
  | k + 1 => redraw chi_eff q a_max (stream (k + 1)) (rounds chi_eff q a_max stream k)

/-- priors.py:303: the loop condition fails after round `k` -/
def loopEnds {n : ℕ} (chi_eff q a_max : ℝ) (stream : ℕ → Fin n → URow) (k : ℕ) : Prop :=
  ∀ i, ¬ unphysical (cost1 chi_eff q (rounds chi_eff q a_max stream k i))

/-- priors.py:317-320 `max_chi_p`; `none` is the NaN of a negative square root. -/
def maxChiP (chi_eff q a_max : ℝ) : Option ℝ :=
  if (1 + q) * |chi_eff| / q < a_max then some a_max
  else
    let r := a_max ^ 2 - ((1 + q) * |chi_eff| - q) ^ 2
    if r < 0 then none else some (√r)

/-- priors.py:323, 327: the 52 grid points: `0`, 50 points from `0.05 m` to `0.95 m`, `m`. -/
def refGrid (m : ℝ) (i : ℕ) : ℝ :=
  if i = 0 then 0 else if i = 51 then m else (linspace (0.05 * m) (0.95 * m) 50).get (i - 1)
/-- priors.py:324, 328: the density estimate on the grid, zero at both ends. -/
def refVals (kde : ℝ → ℝ) (m : ℝ) (i : ℕ) : ℝ := if i = 0 then 0 else if i = 51 then 0 else kde (refGrid m i)

/-- priors.py:323-333: the returned interpolant, for the kernel density estimate `kde` and `m = max_chi_p`. -/
def chipGiven (kde : ℝ → ℝ) (m chi_p : ℝ) : ℝ :=
  let norm_constant := trapz 52 (refVals kde m) (refGrid m)
  interp 52 (refGrid m) (fun i => refVals kde m i / norm_constant) chi_p

/-- priors.py:313: the precession of an accepted draw (`cost1` is finite then, unless `a1 = 0`). -/
def chipDraw (chi_eff q : ℝ) (r : SpinRow) : ℝ := chip q r.a1 r.a2 (cost1 chi_eff q r).toReal r.cost2

/-- priors.py:314 `jacobian_weights` -/
def jacWeight (q : ℝ) (r : SpinRow) : ℝ := (1 + q) / r.a1

/-- priors.py:315 `gaussian_kde(draws, weights=...)` of scipy in one dimension: the weighted sum of normal densities centred at the draws,
the weights divided by their sum, with one common width `h` (scipy derives it from the draws; here it is any number). -/
def gaussKde {n : ℕ} (h : ℝ) (xs ws : Fin n → ℝ) (x : ℝ) : ℝ :=
  (∑ i, ws i * Real.exp (-((x - xs i) ^ 2 / (2 * h ^ 2)))) / (∑ i, ws i) / √(2 * Real.pi * h ^ 2)

/-- priors.py:247-333 `chi_p_prior_given_chi_eff_q` once the loop has ended with `rows`; `none` when the end of the support is NaN. -/
def chipGivenRows {n : ℕ} (h : ℝ) (chi_eff q a_max : ℝ) (rows : Fin n → SpinRow) (chi_p : ℝ) : Option ℝ :=
  (maxChiP chi_eff q a_max).map fun m =>
    chipGiven (gaussKde h (fun i => chipDraw chi_eff q (rows i)) fun i => jacWeight q (rows i)) m chi_p

/-- priors.py:336-379 `joint_prior_from_isotropic_spins` at one point: the product of the two densities.  `rows` are the accepted draws of
this evaluation (each evaluation draws anew). -/
def jointPrior {n : ℕ} (Di : ℝ → ℝ) (depth : ℕ) (h : ℝ) (rows : Fin n → SpinRow) (chi_p chi_eff q a_max : ℝ) : Except PyErr F :=
  match isotropicPrior Di depth chi_eff q a_max with
  | .error e => .error e
  | .ok p => .ok (p * (match chipGivenRows h chi_eff q a_max rows chi_p with | some v => F.fin v | none => F.nan))

end GW
end
