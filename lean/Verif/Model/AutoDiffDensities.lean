import Verif.Model.AutoDiff
import Verif.Model.Distributions
import Verif.Model.NumpyroDistributions
import Verif.Model.Parametric

/-!
# Model of the gradients of the densities in their parameters

The densities of `gwinferno/distributions.py` and `numpyro_distributions.py` at one point, as differentiable programs of their parameters
(reverse mode, see `Model/AutoDiff.lean`).  Further rules of JAX: `x / y`: `(ct / y, ((-ct) * x) * y**-2)`; `x ** y`: `ct * (y * x ** (y - 1))` in
`x` (0 where `y = 0`) and `ct * (log x * x ** y)` in `y`; `where(c, p, q)`: the cotangent to the branch taken, an exact zero to the other, *both
pullbacks are evaluated and added*.  Bases of powers are positive here, so JAX's treatment of a zero base is left out.
-/

open Finset
noncomputable section
open Classical
namespace GW
open F

namespace Diff

variable {α β : Type}

/-- a parameter -/
def var (a : α) : Diff α Unit := ⟨fun x _ => x a, fun _ ct b => if b = a then ct () else 0⟩
/-- a constant -/
def const (c : F) : Diff α Unit := ⟨fun _ _ => c, fun _ _ _ => 0⟩
/-- `x / y` -/
def div : Diff (α ⊕ α) α := ⟨fun x a => x (.inl a) / x (.inr a),
  fun x ct => Sum.elim (fun a => ct a / x (.inr a)) fun a => -ct a * x (.inl a) * (1 / F.sq (x (.inr a)))⟩
/-- `x ** y` -/
def pow : Diff (α ⊕ α) α := ⟨fun x a => F.pow (x (.inl a)) (x (.inr a)),
  fun x ct => Sum.elim (fun a => ct a * (if x (.inr a) = fin 0 then 0 else x (.inr a) * F.pow (x (.inl a)) (x (.inr a) - 1)))
    fun a => ct a * (F.log (x (.inl a)) * F.pow (x (.inl a)) (x (.inr a)))⟩
/-- `-x` -/
def neg : Diff α α := ⟨fun x a => -x a, fun _ ct a => -ct a⟩
/-- a binary operation on two programs of the same parameters -/
def bin (op : Diff (Unit ⊕ Unit) Unit) (p q : Diff α Unit) : Diff α Unit := (Diff.pair p q).andThen op
/-- `jnp.where(c, p, q)` -/
def sel (c : (α → F) → Prop) (p q : Diff α Unit) : Diff α Unit :=
  ⟨fun x u => if c x then p.f x u else q.f x u,
   fun x ct a => p.vjp x (fun u => if c x then ct u else 0) a + q.vjp x (fun u => if c x then 0 else ct u) a⟩

/-- an array computed entry by entry from the same parameters -/
def array [Fintype β] (p : β → Diff α Unit) : Diff α β := ⟨fun x b => (p b).f x (), fun x ct a => ∑ b, (p b).vjp x (fun _ => ct b) a⟩

end Diff

variable {α : Type}

/-- `high ** (1 + alpha) - low ** (1 + alpha)` (distributions.py:115) -/
def powDiffD (alpha low high : Diff α Unit) : Diff α Unit :=
  .bin .sub (.bin .pow high (.bin .add (.const 1) alpha)) (.bin .pow low (.bin .add (.const 1) alpha))

/-- distributions.py:100-119 `powerlaw_pdf(xx, alpha, low, high)`. -/
def powerlawD (xx alpha low high : Diff α Unit) (floor : F := 0) : Diff α Unit :=
  let prob := Diff.bin .pow xx alpha
  let norm := Diff.sel (fun e => feq (alpha.f e ()) (-1))
    (.bin .div (.const 1) ((Diff.bin .div high low).andThen .log))
    (.bin .div (.bin .add (.const 1) alpha) (powDiffD alpha low high))
  .sel (fun e => lt (xx.f e ()) (low.f e ()) ∨ gt (xx.f e ()) (high.f e ())) (.const floor) (.bin .mul prob norm)

/-- numpyro_distributions.py:127-136 `Powerlaw.log_prob(value)`. -/
def plLogProbD (alpha minimum maximum value : Diff α Unit) : Diff α Unit :=
  let logp := Diff.bin .add (.bin .mul alpha (value.andThen .log))
    ((Diff.bin .div (.bin .add (.const 1) alpha) (powDiffD alpha minimum maximum)).andThen .log)
  let logp_neg1 := Diff.bin .sub ((value.andThen .log).andThen .neg) ((Diff.bin .div maximum minimum).andThen .log)
  .sel (fun e => lt (value.f e ()) (minimum.f e ()) ∨ gt (value.f e ()) (maximum.f e ())) (.const (F.nanToNum ninf))
    (.sel (fun e => feq (alpha.f e ()) (-1)) logp_neg1 logp)

/-- `betaln(a, b)`; the rule is the partial derivative where the arguments are numbers.  Simplification: JAX computes it from `digamma`;
elsewhere NaN. -/
def betalnD : Diff (Unit ⊕ Unit) Unit :=
  ⟨fun x _ => betalnF (x (.inl ())) (x (.inr ())), fun x ct => match x (.inl ()), x (.inr ()) with
    | fin a, fin b => Sum.elim (fun _ => ct () * fin (deriv (fun t => (betalnF (fin t) (fin b)).toReal) a))
        fun _ => ct () * fin (deriv (fun t => (betalnF (fin a) (fin t)).toReal) b)
    | _, _ => fun _ => nan⟩

/-- the logarithm of the Beta density (distributions.py:160-161) -/
def lnBetaD (xx alpha beta scale : Diff α Unit) : Diff α Unit :=
  Diff.bin .sub (Diff.bin .sub (.bin .add (.bin .mul (.bin .sub alpha (.const 1)) (xx.andThen .log))
      (.bin .mul (.bin .sub beta (.const 1)) ((Diff.bin .sub scale xx).andThen .log)))
    (.bin .mul (.bin .sub (.bin .add alpha beta) (.const 1)) (scale.andThen .log))) (.bin betalnD alpha beta)

/-- distributions.py:146-162 `betadist(xx, alpha, beta, scale)`. -/
def betaD (xx alpha beta scale : Diff α Unit) (floor : F := 0) : Diff α Unit :=
  .sel (fun e => le (xx.f e ()) (scale.f e ()) ∧ ge (xx.f e ()) 0) ((lnBetaD xx alpha beta scale).andThen .exp) (.const floor)

/-- `erf`: `ct * (2 / sqrt(pi) * exp(-x**2))` -/
def erfD : Diff Unit Unit :=
  ⟨fun x a => erfF (x a), fun x ct a => ct a * (fin (2 / Real.sqrt Real.pi) * F.exp (-F.sq (x a)))⟩

/-- `x ** 2`, `jnp.power(x, 2)` (an integer power) -/
def sqD : Diff Unit Unit := ⟨fun x a => F.pow (x a) 2, fun x ct a => ct a * (2 * x a)⟩

/-- distributions.py:122-143 `truncnorm_pdf(xx, mu, sig, low, high)` (`log=False`). -/
def truncnormD (xx mu sig low high : Diff α Unit) : Diff α Unit :=
  let prob := (Diff.bin .div (((Diff.bin .sub xx mu).andThen sqD).andThen .neg) (.bin .mul (.const 2) (sig.andThen sqD))).andThen .exp
  let continuous_norm := Diff.bin .div (.const 1) (.bin .mul sig (.const (F.pow (2 * fin Real.pi) (fin (1/2)))))
  let tail (v : Diff α Unit) := Diff.bin .mul (.const (fin (1/2))) (.bin .add (.const 1)
    ((Diff.bin .div (.bin .sub v mu) (.bin .mul sig (.const (F.pow 2 (fin (1/2)))))).andThen erfD))
  let denom := Diff.bin .sub (tail high) (tail low)
  let norm := Diff.bin .div continuous_norm denom
  .sel (fun e => gt (xx.f e ()) (high.f e ()) ∨ lt (xx.f e ()) (low.f e ())) (.const 0) (.bin .mul prob norm)

/-- parametric.py:39-57 `plpeak_primary_ratio_pdf(m1, q, alpha, beta, mmin, mmax, mpp, sigpp, lam)` (`delta=None`). -/
def plpeakD (m1 q alpha beta mmin mmax mpp sigpp lam : Diff α Unit) : Diff α Unit :=
  let p_q := powerlawD q beta (.bin .div mmin m1) (.const 1)
  let p_m1 := Diff.bin .add (.bin .mul (.bin .sub (.const 1) lam) (powerlawD m1 alpha mmin mmax)) (.bin .mul lam (truncnormD m1 mpp sigpp mmin mmax))
  .bin .mul p_q p_m1

/-- the log likelihood of analysis.py:259-319 as a function of the hyper-parameters: the weights (analysis.py:171-178) are computed entry by entry,
then passed to `hierarchical_likelihood` -/
def hyperD {E N M : ℕ} (fl : Flags) (pe : Fin E → Fin N → Diff α Unit) (inj : Fin M → Diff α Unit) (Ninj Nobs : ℕ) : Diff α Unit :=
  (Diff.array (Sum.elim (fun ej : Fin E × Fin N => pe ej.1 ej.2) inj)).andThen (likelihoodD fl E N M Ninj Nobs)

/-- the weight of one sample or injection under the power law + peak model with the hyper-parameters
`(alpha, beta, mmin, mmax, mpp, sigpp, lam)`: the density at `(m1, q)` over the prior (analysis.py:171-178) -/
def plpeakWeightD (m1 q prior : ℝ) : Diff (Fin 7) Unit :=
  .bin .div (plpeakD (.const (fin m1)) (.const (fin q)) (.var 0) (.var 1) (.var 2) (.var 3) (.var 4) (.var 5) (.var 6)) (.const (fin prior))

end GW
end
