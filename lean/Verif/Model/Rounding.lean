import Verif.Model.Analysis
import Mathlib.Data.List.FinRange

/-!
# Model of the likelihood in rounded arithmetic

The same functions of `gwinferno/pipeline/analysis.py` as in `Verif.Model.Analysis`, but every operation is rounded: its exact result (special values as in `F`) is
passed through the rounding function of a floating-point format.  `exp` and `log` are those of the library, and a sum is evaluated in some order, chosen by the compiler:
a binary tree over the entries.  What is assumed about rounding and library is stated in the properties, not here.  Not modelled: fused multiply-add, and
the double rounding of the Python quotient `1 / weights.shape[1]`.
-/

open Finset
noncomputable section
open Classical
namespace GW
open F

/-- A floating-point arithmetic: rounding of an exact result, and the library's exponential and logarithm. -/
structure Arith where
  rd : ℝ → F
  exp : F → F
  log : F → F

/-- the arithmetic of `Verif.Model.Analysis`: no rounding -/
def Arith.exact : Arith := ⟨fin, F.exp, F.log⟩

/-- rounding of the result of an operation: special values are not rounded -/
def Arith.r (f : Arith) : F → F
  | fin x => f.rd x
  | v => v

/-- the order in which the entries of an array of length `n` are added -/
inductive RTree (n : ℕ) where
  | leaf (i : Fin n)
  | node (l r : RTree n)

/-- the entries added, from left to right -/
def RTree.leaves {n : ℕ} : RTree n → List (Fin n)
  | .leaf i => [i]
  | .node l r => l.leaves ++ r.leaves

/-- the largest number of additions an entry goes through -/
def RTree.depth {n : ℕ} : RTree n → ℕ
  | .leaf _ => 0
  | .node l r => max l.depth r.depth + 1

/-- every entry is added exactly once -/
def RTree.Covers {n : ℕ} (t : RTree n) : Prop := t.leaves.Perm (List.finRange n)

/-- `jnp.sum(a)` in the order `t` -/
def Arith.sum (f : Arith) {n : ℕ} (a : Fin n → F) : RTree n → F
  | .leaf i => a i
  | .node l r => f.r (f.sum a l + f.sum a r)

/-- `jax.scipy.special.logsumexp(a)`, the sum in the order `t` (compare `logsumexp` of Verif.Model.Analysis) -/
def Arith.logsumexp (f : Arith) {n : ℕ} (t : RTree n) (a : Fin n → F) : F :=
  let amax := maxF a
  let shift : F := if isfinite amax then amax else 0
  f.r (f.log (f.sum (fun i => f.exp (f.r (a i - shift))) t) + shift)

/-- analysis.py:76-87 for one row: log Bayes factor, log n_eff, variance; `t` and `t2` are the orders of the two sums. -/
def perEventRowR (f : Arith) {N : ℕ} (t t2 : RTree N) (w : Fin N → F) (log : Bool) : F × F × F :=
  let r : F × F :=
    if log then
      let logBF := f.logsumexp t w
      let logn_eff := f.r (f.r (2 * logBF) - f.logsumexp t2 (fun i => f.r (2 * w i)))
      (f.r (logBF - f.log (f.rd N)), logn_eff)
    else
      let BF := f.sum w t
      let n_eff := f.r (f.r (sq BF) / f.sum (fun i => f.r (sq (w i))) t2)
      let BF := f.r (BF / f.rd N)
      (f.log BF, f.log n_eff)
  (r.1, r.2, f.r (f.r (1 / f.exp r.2) - f.rd (1 / N)))

/-- analysis.py:91-136 `detection_efficiency(weights, Ninj, log)` with a floating-point `Ninj`: log mu, log n_eff, variance. -/
def detectionEfficiencyR (f : Arith) {M : ℕ} (t t2 : RTree M) (w : Fin M → F) (Ninj : ℕ) (log : Bool) : F × F × F :=
  let r : F × F :=
    if log then
      let logmu := f.r (f.logsumexp t w - f.log (f.rd Ninj))
      let mu := f.exp logmu
      let var := f.r (f.r (f.sum (fun i => f.r (sq (f.exp (w i)))) t2 / f.r (sq (f.rd Ninj))) - f.r (f.r (sq mu) / f.rd Ninj))
      (logmu, f.r (f.r (2 * logmu) - f.log var))
    else
      let mu := f.r (f.sum w t / f.rd Ninj)
      let var := f.r (f.r (f.sum (fun i => f.r (sq (w i))) t2 / f.r (sq (f.rd Ninj))) - f.r (f.r (sq mu) / f.rd Ninj))
      let logmu := f.log mu
      (logmu, f.r (f.r (2 * logmu) - f.log var))
  (r.1, r.2, f.r (f.r (1 / f.exp r.2) - f.r (1 / f.rd Ninj)))

/-- analysis.py:270-281: the selection factor (compare `selectionFactor`). -/
def selectionFactorR (f : Arith) (fl : Flags) (Nobs : ℕ) (log_det_eff logn_eff_inj : F) : F :=
  let log_det_eff := if fl.marginalize_selection then
      f.r (log_det_eff - f.r (f.rd (3 + Nobs) / f.r (2 * f.exp logn_eff_inj))) else log_det_eff
  let log_det_eff := if fl.min_neff_cut then
      (if ge logn_eff_inj (f.log (f.rd (4 * Nobs))) then log_det_eff else pinf) else log_det_eff
  if isinf log_det_eff then nanToNum ninf else f.r (-f.rd Nobs * log_det_eff)

/-- analysis.py:283-291: `log_l` with NaN replaced. -/
def guardedLogLR (f : Arith) (sel sumlogBFs : F) : F :=
  let log_l := f.r (sel + sumlogBFs)
  if isnan log_l then nanToNum ninf else nanToNum log_l

/-- analysis.py:294-303: the cut on the per-event effective sample sizes. -/
def neffCutR (f : Arith) {E : ℕ} (fl : Flags) (Nobs : ℕ) (logn_effs : Fin E → F) (log_l : F) : F :=
  if fl.min_neff_cut then
    let min_n_effs := f.exp (minF fun e => nanToNum (logn_effs e))
    if le min_n_effs (f.rd Nobs) then nanToNum ninf else log_l
  else log_l

/-- the orders of the sums of one evaluation: over the samples of each event (twice), over the injections (twice), over the events (twice) -/
structure Orders (E N M : ℕ) where
  pe : Fin E → RTree N
  pe2 : Fin E → RTree N
  inj : RTree M
  inj2 : RTree M
  bf : RTree E
  var : RTree E

/-- every sum adds every entry once -/
structure Orders.Covers {E N M : ℕ} (o : Orders E N M) : Prop where
  pe : ∀ e, (o.pe e).Covers
  pe2 : ∀ e, (o.pe2 e).Covers
  inj : o.inj.Covers
  inj2 : o.inj2.Covers
  bf : o.bf.Covers
  var : o.var.Covers

/-- no entry goes through more than `D` additions -/
structure Orders.DepthLe {E N M : ℕ} (o : Orders E N M) (D : ℕ) : Prop where
  pe : ∀ e, (o.pe e).depth ≤ D
  pe2 : ∀ e, (o.pe2 e).depth ≤ D
  inj : o.inj.depth ≤ D
  inj2 : o.inj2.depth ≤ D
  bf : o.bf.depth ≤ D
  var : o.var.depth ≤ D

/-- analysis.py:257-319: the value `hierarchical_likelihood` passes to `numpyro.factor("log_likelihood", …)`, for one array of posterior weights and compatible flags
(the check of lines 235-242 and the recorded values are in `hierarchical_likelihood`). -/
def logLikelihoodR (f : Arith) {E N M : ℕ} (o : Orders E N M) (fl : Flags) (pe : Fin E → Fin N → F) (inj : Fin M → F) (total_inj Nobs : ℕ) : F :=
  let b := fun e => perEventRowR f (o.pe e) (o.pe2 e) (pe e) fl.log
  let d := detectionEfficiencyR f o.inj o.inj2 inj total_inj fl.log
  let sel := selectionFactorR f fl Nobs d.1 d.2.1
  let sumlogBFs := f.sum (fun e => (b e).1) o.bf
  let log_l := guardedLogLR f sel sumlogBFs
  let log_l2 := neffCutR f fl Nobs (fun e => (b e).2.1) log_l
  let total_var := f.r (f.r (f.rd ((Nobs : ℝ) ^ 2) * d.2.2) + f.sum (fun e => (b e).2.2) o.var)
  varianceCut fl total_var log_l2

end GW
end
