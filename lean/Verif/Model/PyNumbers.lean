import Verif.Model.Parametric
import Verif.Model.NumpyroDistributions
import Verif.Model.Analysis

/-!
# Python numbers as arguments

The densities of `distributions.py` and `numpyro_distributions.py` write `/` and `**` on their parameters.  When both operands are plain
Python numbers (a fixed hyper-parameter, a keyword default such as `minimum=0.0`), these are Python's own operators, evaluated before JAX sees
anything: they raise `ZeroDivisionError` where the array operators return `inf` or `nan`, and `jnp.where` cannot prevent it because both of
its branches are evaluated first.  As soon as one operand is an array (numpy or JAX, of any rank, traced or not; numpy scalars too) the array
operator is used.

Simplifications: exact real arithmetic as everywhere (so no `OverflowError`); a negative Python number to a fractional power is a complex
number in Python and NaN here (the theorems about values take positive bounds).
-/

noncomputable section
open Classical
namespace GW
open F

/-- A number as the caller passes it: a Python `int`/`float`, or (an entry of) an array. -/
inductive PV where
  | py (v : F)
  | arr (v : F)

namespace PV

/-- the number itself -/
def val : PV → F
  | py v => v
  | arr v => v

/-- it is a plain Python number -/
def isPy : PV → Prop
  | py _ => True
  | arr _ => False

/-- an operator that cannot raise: Python's on two Python numbers, the array operator otherwise -/
def lift (f : F → F → F) : PV → PV → PV
  | py a, py b => py (f a b)
  | a, b => arr (f a.val b.val)

instance : Add PV := ⟨lift (· + ·)⟩
instance : Sub PV := ⟨lift (· - ·)⟩
instance : Mul PV := ⟨lift (· * ·)⟩
instance : One PV := ⟨py 1⟩

/-- `-x` -/
def neg : PV → PV
  | py a => py (-a)
  | arr a => arr (-a)
instance : Neg PV := ⟨neg⟩

/-- `a / b`: `float.__truediv__` raises when the divisor is zero. -/
def div : PV → PV → Except PyErr PV
  | py a, py b => if b = fin 0 then .error .zeroDivisionError else .ok (py (a / b))
  | a, b => .ok (arr (a.val / b.val))

/-- `a ** b`: `float.__pow__` raises for zero to a (finite) negative power. -/
def pow : PV → PV → Except PyErr PV
  | py a, py b => if a = fin 0 ∧ ∃ y : ℝ, y < 0 ∧ b = fin y then .error .zeroDivisionError else .ok (py (F.pow a b))
  | a, b => .ok (arr (F.pow a.val b.val))

/-- `jnp.log` and the other `jnp` functions always return an array -/
def jlog (a : PV) : PV := arr (F.log a.val)

end PV

open PV

/-- distributions.py:100-119 `powerlaw_pdf(xx, alpha, low, high, floor)`; `xx` and `floor` only enter `jnp` functions. -/
def powerlaw_pdfPy (xx : F) (alpha low high : PV) (floor : F := 0) : Except PyErr F := do
  let prob := F.pow xx alpha.val
  let r ← PV.div high low
  let b1 ← PV.div (py 1) (jlog r)
  let hp ← PV.pow high (1 + alpha)
  let lp ← PV.pow low (1 + alpha)
  let b2 ← PV.div (1 + alpha) (hp - lp)
  let norm := if feq alpha.val (-1) then b1.val else b2.val
  return (if lt xx low.val ∨ gt xx high.val then floor else prob * norm)

/-- distributions.py:122-143 `truncnorm_pdf(xx, mu, sig, low, high, log)`.  `2 * jnp.pi` is a Python number; `erf` returns an array, so
everything after the two arguments of `erf` is array arithmetic. -/
def truncnorm_pdfPy (xx mu sig low high : PV) (logFlag : Bool := false) : Except PyErr F := do
  let u : PV → PV := fun v => if logFlag then jlog v else v
  let num := F.pow ((u xx).val - mu.val) 2
  let s2 ← PV.pow sig (py 2)
  let d ← PV.div (arr (-num)) (py 2 * s2)
  let prob := F.exp d.val
  let rt := F.pow (2 * fin Real.pi) (fin (1/2))
  let cn ← if logFlag then PV.div (py 1) (xx * sig * py rt) else PV.div (py 1) (sig * py rt)
  let tl ← PV.div (u low - mu) (sig * py (F.pow 2 (fin (1/2))))
  let tr ← PV.div (u high - mu) (sig * py (F.pow 2 (fin (1/2))))
  let left_tail_cdf := fin (1/2) * (1 + erfF tl.val)
  let right_tail_cdf := fin (1/2) * (1 + erfF tr.val)
  let norm := cn.val / (right_tail_cdf - left_tail_cdf)
  return (if gt xx.val high.val ∨ lt xx.val low.val then 0 else prob * norm)

/-- parametric.py:28-31 `powerlaw_primary_ratio_pdf`, with the samples `m1`, `q` in arrays. -/
def powerlaw_primary_ratio_pdfPy (m1 q : F) (alpha beta mmin mmax : PV) : Except PyErr F := do
  let lo ← PV.div mmin (arr m1)
  let p_q ← powerlaw_pdfPy q beta lo (py 1)
  let p_m1 ← powerlaw_pdfPy m1 alpha mmin mmax
  return (p_q * p_m1)

/-- parametric.py:50-54 `plpeak_primary_pdf` without the low-mass smoothing (`delta=None`). -/
def plpeak_primary_pdfPy (m1 : F) (alpha mmin mmax mpp sigpp lam : PV) : Except PyErr F := do
  let p ← powerlaw_pdfPy m1 alpha mmin mmax
  let t ← truncnorm_pdfPy (arr m1) mpp sigpp mmin mmax
  return ((1 - lam.val) * p + lam.val * t)

/-- parametric.py:39-47 `plpeak_primary_ratio_pdf` without smoothing. -/
def plpeak_primary_ratio_pdfPy (m1 q : F) (alpha beta mmin mmax mpp sigpp lam : PV) : Except PyErr F := do
  let lo ← PV.div mmin (arr m1)
  let p_q ← powerlaw_pdfPy q beta lo (py 1)
  let p_m1 ← plpeak_primary_pdfPy m1 alpha mmin mmax mpp sigpp lam
  return (p_q * p_m1)

/-- parametric.py:84-86 `mixture_isoalign_spin_tilt`: the truncated normal gets the Python numbers 1, -1, 1. -/
def mixture_isoalign_spin_tiltPy (ct : F) (xi_tilt sigma_tilt : PV) : Except PyErr F := do
  let cut : F := if gt ct 1 ∨ lt ct (-1) then 0 else 1
  let t ← truncnorm_pdfPy (arr ct) (py 1) sigma_tilt (py (-1)) (py 1)
  return (cut * (1 - xi_tilt.val) / 2 + xi_tilt.val * t)

/-! ### the `Powerlaw` distribution

`promote_shapes` (numpyro) reshapes an argument only if another one has more axes; a Python number given together with scalars stays a Python
number, given together with an argument that has axes it becomes an array. -/

/-- numpyro_distributions.py:109-118 the stored `minimum`, `maximum`, `alpha`; `batched`: some argument has at least one axis. -/
structure PLDist where
  alpha : PV
  minimum : PV
  maximum : PV

/-- numpyro_distributions.py:109-110 `Powerlaw.__init__(alpha, minimum=0.0, maximum=1.0)` -/
def PLDist.make (batched : Bool) (alpha : PV) (minimum : PV := py 0) (maximum : PV := py 1) : PLDist :=
  let promote : PV → PV := fun v => if batched then arr v.val else v
  ⟨promote alpha, promote minimum, promote maximum⟩

/-- numpyro_distributions.py:127-136 `Powerlaw.log_prob` -/
def PLDist.log_prob (d : PLDist) (value : PV) : Except PyErr F := do
  let logp := d.alpha.val * F.log value.val
  let e := py 1 + d.alpha
  let mx ← PV.pow d.maximum e
  let mn ← PV.pow d.minimum e
  let r ← PV.div e (mx - mn)
  let logp := logp + F.log r.val
  let r1 ← PV.div d.maximum d.minimum
  let logp_neg1 := -F.log value.val - F.log r1.val
  return (if lt value.val d.minimum.val ∨ gt value.val d.maximum.val then nanToNum ninf
    else if feq d.alpha.val (-1) then logp_neg1 else logp)

/-- numpyro_distributions.py:138-146 `Powerlaw.cdf`; `jnp.atleast_1d` makes the numerator an array before the division. -/
def PLDist.cdf (d : PLDist) (value : PV) : Except PyErr F := do
  let e := d.alpha + py 1
  let vp ← PV.pow value e
  let mn ← PV.pow d.minimum e
  let num := arr (vp - mn).val
  let mx ← PV.pow d.maximum e
  let mn' ← PV.pow d.minimum e
  let cdf ← PV.div num (mx - mn')
  let r ← PV.div value d.minimum
  let r1 ← PV.div d.maximum d.minimum
  let cdf_neg1 := F.log r.val / F.log r1.val
  let cdf := if feq d.alpha.val (-1) then cdf_neg1 else cdf.val
  return (F.max (F.min cdf 1) 0)

/-- numpyro_distributions.py:148-153 `Powerlaw.icdf` -/
def PLDist.icdf (d : PLDist) (q : PV) : Except PyErr F := do
  let e := py 1 + d.alpha
  let mn ← PV.pow d.minimum e
  let mx ← PV.pow d.maximum e
  let mn' ← PV.pow d.minimum e
  let ex ← PV.div (py 1) e
  let icdf ← PV.pow (mn + q * (mx - mn')) ex
  let r1 ← PV.div d.maximum d.minimum
  let icdf_neg1 := d.minimum.val * F.exp (q.val * F.log r1.val)
  return (if feq d.alpha.val (-1) then icdf_neg1 else icdf.val)

/-- numpyro_distributions.py:123-125 `Powerlaw.sample`: `icdf` of an array of uniforms. -/
def PLDist.sample (d : PLDist) (u : F) : Except PyErr F := d.icdf (arr u)

end GW
end
