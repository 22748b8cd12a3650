import Verif.Model.Analysis

/-!
# Model of the gradients the samplers use

The samplers behind `gwinferno/pipeline/analysis.py` (`find_map` 24-47, numpyro's NUTS in the examples) differentiate the log likelihood by
JAX's reverse-mode automatic differentiation.  A differentiable array program is its value together with its pullback: given the input
and the cotangent of the output, the cotangent of the input, computed in the same arithmetic as the values (so `0 * inf`, `0 / 0` are NaN).
Where an array is used twice the cotangents of the uses are added.  The rules of the primitives are JAX's (`jax/_src/lax/lax.py`):
`log`: `ct / x`; `exp`: `ct * exp x`; `x**2`: `ct * (2 * x)`; `x * y`: `(ct * y, ct * x)`; `c / y`: `((-ct) * c) * y**-2`; `where`: the cotangent
goes to the branch taken and an exact zero to the other; a sum copies it.  Conditions and `stop_gradient` carry no derivative.  The
outputs that do not reach the log density (the recorded sites) get no cotangent and are left out.
-/

open Finset
noncomputable section
open Classical
namespace GW
open F

/-- a differentiable program on arrays indexed by `α` and `β`: value and pullback -/
structure Diff (α β : Type) where
  f : (α → F) → β → F
  vjp : (α → F) → (β → F) → α → F

namespace Diff

variable {α β γ δ : Type}

/-- one program after the other -/
def andThen (p : Diff α β) (q : Diff β γ) : Diff α γ := ⟨fun x => q.f (p.f x), fun x ct => p.vjp x (q.vjp (p.f x) ct)⟩

/-- two programs reading the same input: the cotangents are added -/
def pair (p : Diff α β) (q : Diff α γ) : Diff α (β ⊕ γ) :=
  ⟨fun x => Sum.elim (p.f x) (q.f x), fun x ct a => p.vjp x (fun b => ct (.inl b)) a + q.vjp x (fun c => ct (.inr c)) a⟩

/-- two programs side by side -/
def par (p : Diff α β) (q : Diff γ δ) : Diff (α ⊕ γ) (β ⊕ δ) :=
  ⟨fun x => Sum.elim (p.f fun a => x (.inl a)) (q.f fun c => x (.inr c)),
   fun x ct => Sum.elim (p.vjp (fun a => x (.inl a)) fun b => ct (.inl b)) (q.vjp (fun c => x (.inr c)) fun d => ct (.inr d))⟩

/-- a program with parts that depend on the value of the input but carry no derivative: conditions, `stop_gradient` -/
def frozen (k : (α → F) → Diff α β) : Diff α β := ⟨fun x => (k x).f x, fun x => (k x).vjp x⟩

def fst : Diff (α ⊕ β) α := ⟨fun x a => x (.inl a), fun _ ct => Sum.elim ct fun _ => 0⟩
def snd : Diff (α ⊕ β) β := ⟨fun x b => x (.inr b), fun _ ct => Sum.elim (fun _ => 0) ct⟩

/-- `jnp.log` -/
def log : Diff α α := ⟨fun x a => F.log (x a), fun x ct a => ct a / x a⟩
/-- `jnp.exp` -/
def exp : Diff α α := ⟨fun x a => F.exp (x a), fun x ct a => ct a * F.exp (x a)⟩
/-- `x**2` -/
def sq : Diff α α := ⟨fun x a => F.sq (x a), fun x ct a => ct a * (2 * x a)⟩
/-- `c * x` -/
def scale (c : F) : Diff α α := ⟨fun x a => c * x a, fun _ ct a => ct a * c⟩
/-- `x / c` -/
def divC (c : F) : Diff α α := ⟨fun x a => x a / c, fun _ ct a => ct a / c⟩
/-- `c / x` -/
def cDiv (c : F) : Diff α α := ⟨fun x a => c / x a, fun x ct a => -ct a * c * (1 / F.sq (x a))⟩
/-- `x - c` -/
def subC (c : F) : Diff α α := ⟨fun x a => x a - c, fun _ ct => ct⟩
/-- `x + c` -/
def addC (c : F) : Diff α α := ⟨fun x a => x a + c, fun _ ct => ct⟩
/-- `x + y` -/
def add : Diff (α ⊕ α) α := ⟨fun x a => x (.inl a) + x (.inr a), fun _ ct => Sum.elim ct ct⟩
/-- `x - y` -/
def sub : Diff (α ⊕ α) α := ⟨fun x a => x (.inl a) - x (.inr a), fun _ ct => Sum.elim ct fun a => -ct a⟩
/-- `x * y` -/
def mul : Diff (α ⊕ α) α := ⟨fun x a => x (.inl a) * x (.inr a), fun x ct => Sum.elim (fun a => ct a * x (.inr a)) fun a => ct a * x (.inl a)⟩
/-- `jnp.sum` -/
def sum [Fintype α] : Diff α Unit := ⟨fun x _ => ∑ a, x a, fun _ ct _ => ct ()⟩
/-- `jnp.sum(axis=1)` -/
def sumRows [Fintype β] : Diff (α × β) α := ⟨fun x a => ∑ b, x (a, b), fun _ ct ab => ct ab.1⟩
/-- `jnp.where(b, c, x)` with a constant `c` -/
def orElse (b : α → Prop) (c : F) : Diff α α := ⟨fun x a => if b a then c else x a, fun _ ct a => if b a then 0 else ct a⟩
/-- `jnp.nan_to_num`: three `where`s with constants -/
def nanToNum : Diff α α := ⟨fun x a => F.nanToNum (x a), fun x ct a => if isfinite (x a) then ct a else 0⟩

end Diff

/-- the shift of `logsumexp`, under a `stop_gradient` -/
def lseShift {n : ℕ} (a : Fin n → F) : F := if isfinite (maxF a) then maxF a else 0

/-- `logsumexp(a)` -/
def lseD {n : ℕ} : Diff (Fin n) Unit :=
  .frozen fun a => (((Diff.subC (lseShift a)).andThen .exp).andThen .sum).andThen (.andThen .log (.addC (lseShift a)))

/-- `logsumexp(a, axis=1)`: one `logsumexp` per row -/
def lseRowsD {E n : ℕ} : Diff (Fin E × Fin n) (Fin E) :=
  ⟨fun x e => lseD.f (fun j => x (e, j)) (), fun x ct ej => lseD.vjp (fun j => x (ej.1, j)) (fun _ => ct ej.1) ej.2⟩

/-- analysis.py:76-87: the log Bayes factors returned by `per_event_log_bayes_factors`, as a function of the weights. -/
def perEventD (E N : ℕ) (log : Bool) : Diff (Fin E × Fin N) (Fin E) :=
  if log then lseRowsD.andThen (.subC (F.log (fin N)))
  else (Diff.sumRows.andThen (.divC (fin N))).andThen .log

/-- analysis.py:125-133: `logmu` of `detection_efficiency`, as a function of the weights. -/
def logmuD (M Ninj : ℕ) (log : Bool) : Diff (Fin M) Unit :=
  if log then lseD.andThen (.subC (F.log (fin Ninj)))
  else (Diff.sum.andThen (.divC (fin Ninj))).andThen .log

/-- analysis.py:131-132: `(mu, sum(weights**2) / Ninj**2)` -/
def momentsD (M Ninj : ℕ) : Diff (Fin M) (Unit ⊕ Unit) :=
  .pair (Diff.sum.andThen (.divC (fin Ninj))) ((Diff.sq.andThen .sum).andThen (.divC (fin ((Ninj : ℝ) ^ 2))))

/-- analysis.py:132: `(mu, s) ↦ (mu, s - mu**2 / Ninj)` -/
def varD (Ninj : ℕ) : Diff (Unit ⊕ Unit) (Unit ⊕ Unit) :=
  .pair .fst (.andThen (.pair .snd ((Diff.fst.andThen .sq).andThen (.divC (fin Ninj)))) .sub)

/-- analysis.py:126-128: `(logmu, sum(exp(logweights)**2) / Ninj**2)` -/
def momentsLogD (M Ninj : ℕ) : Diff (Fin M) (Unit ⊕ Unit) :=
  .pair (lseD.andThen (.subC (F.log (fin Ninj)))) (((Diff.exp.andThen .sq).andThen .sum).andThen (.divC (fin ((Ninj : ℝ) ^ 2))))

/-- analysis.py:127-128: `(logmu, s) ↦ (logmu, s - exp(logmu)**2 / Ninj)` -/
def varLogD (Ninj : ℕ) : Diff (Unit ⊕ Unit) (Unit ⊕ Unit) :=
  .pair .fst (.andThen (.pair .snd (((Diff.fst.andThen .exp).andThen .sq).andThen (.divC (fin Ninj)))) .sub)

/-- analysis.py:129, 134: `(logmu, log(var)) ↦ (logmu, 2 * logmu - log(var))` -/
def neffD : Diff (Unit ⊕ Unit) (Unit ⊕ Unit) := .pair .fst (.andThen (.pair (.andThen .fst (.scale 2)) .snd) .sub)

/-- analysis.py:124-134: `(logmu, logn_eff)` of `detection_efficiency` when both reach the log density. -/
def detectionD (M Ninj : ℕ) (log : Bool) : Diff (Fin M) (Unit ⊕ Unit) :=
  if log then (momentsLogD M Ninj).andThen ((varLogD Ninj).andThen ((Diff.pair .fst (.andThen .snd .log)).andThen neffD))
  else (momentsD M Ninj).andThen ((varD Ninj).andThen ((Diff.par .log .log).andThen neffD))

/-- analysis.py:269: `(log_det_eff, logn_eff_inj) ↦ log_det_eff - (3 + Nobs) / (2 * exp(logn_eff_inj))` -/
def marginalD (Nobs : ℕ) : Diff (Unit ⊕ Unit) Unit :=
  .andThen (.pair .fst (((Diff.snd.andThen .exp).andThen (.scale 2)).andThen (.cDiv (fin (3 + Nobs))))) .sub

/-- analysis.py:268-269: `log_det_eff` after the marginalisation of the selection uncertainty, as a function of the weights of the injections. -/
def logDetEffD (fl : Flags) (M Ninj Nobs : ℕ) : Diff (Fin M) Unit :=
  if fl.marginalize_selection then
    (detectionD M Ninj fl.log).andThen (marginalD Nobs)
  else logmuD M Ninj fl.log

/-- analysis.py:270-280: the cut on the injections and the selection factor; `poor` is the condition of the cut. -/
def selectionD (fl : Flags) (M Ninj Nobs : ℕ) (poor : Prop) : Diff (Fin M) Unit :=
  ((logDetEffD fl M Ninj Nobs).andThen (.orElse (fun _ => fl.min_neff_cut = true ∧ poor) pinf)).andThen
    (.frozen fun x => (Diff.scale (-fin Nobs)).andThen (.orElse (fun a => isinf (x a)) (F.nanToNum ninf)))

/-- analysis.py:259-319: what `hierarchical_likelihood` passes to `numpyro.factor`, as a function of the weights of the samples and of the
injections.  The conditions of the cuts (analysis.py:271, 294-299, 313) are read off the values. -/
def likelihoodD (fl : Flags) (E N M Ninj Nobs : ℕ) : Diff (Fin E × Fin N ⊕ Fin M) Unit :=
  .frozen fun x =>
    let b := per_event_log_bayes_factors (fun e j => x (.inl (e, j))) fl.log
    let d := detection_efficiency (fun i => x (.inr i)) Ninj fl.log
    let few := le (F.exp (minF fun e => F.nanToNum (b.2.1 e))) (fin Nobs)
    let variance := fin ((Nobs : ℝ) ^ 2) * d.2.2 + ∑ e, b.2.2 e
    let logL : Diff (Fin E × Fin N ⊕ Fin M) Unit :=
      (Diff.par ((perEventD E N fl.log).andThen .sum) (selectionD fl M Ninj Nobs (¬ ge d.2.1 (F.log (fin (4 * Nobs)))))).andThen .add
    ((logL.andThen (.frozen fun y => Diff.nanToNum.andThen (.orElse (fun a => isnan (y a)) (F.nanToNum ninf)))).andThen
      (.orElse (fun _ => fl.min_neff_cut = true ∧ few) (F.nanToNum ninf))).andThen
      (.orElse (fun _ => fl.max_variance_cut = true ∧ ¬ le variance 1) (F.nanToNum ninf))

/-- the gradient of the log likelihood in the weights: the pullback of the cotangent 1 -/
def likelihoodGrad {E N M : ℕ} (fl : Flags) (pe : Fin E → Fin N → F) (inj : Fin M → F) (Ninj Nobs : ℕ) : Fin E × Fin N ⊕ Fin M → F :=
  (likelihoodD fl E N M Ninj Nobs).vjp (Sum.elim (fun ej => pe ej.1 ej.2) inj) fun _ => 1

/-- weights that are the product of two densities, or their logarithm: `log(p * q)` (how a user of `hierarchical_likelihood` turns the densities of
`gwinferno/distributions.py`, which are zero outside their range, into the weights of analysis.py:171-178) -/
def productD {α : Type} (log : Bool) : Diff (α ⊕ α) α := if log then Diff.mul.andThen .log else .mul

/-- `hierarchical_likelihood` at the weights `p * q` of the samples, differentiated in `p`, `q` and the weights of the injections -/
def productGrad {E N M : ℕ} (fl : Flags) (p q : Fin E → Fin N → F) (inj : Fin M → F) (Ninj Nobs : ℕ) :
    (Fin E × Fin N ⊕ Fin E × Fin N) ⊕ Fin M → F :=
  ((Diff.par (productD fl.log) (.scale 1)).andThen (likelihoodD fl E N M Ninj Nobs)).vjp
    (Sum.elim (Sum.elim (fun ej => p ej.1 ej.2) fun ej => q ej.1 ej.2) inj) fun _ => 1

end GW
end
