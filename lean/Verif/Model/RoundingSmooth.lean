import Verif.Model.RoundingParametric

/-!
# Model of the low-mass taper, and of the masses with it, in rounded arithmetic

`smooth` of `gwinferno/distributions.py` as in `Verif.Model.Distributions`, but with floating-point arguments of one format: the result of every operation is rounded (`Arith.r`).
The power `(func + 1) ** (-1)` has a Python integer as exponent, for which `jnp` computes the reciprocal.  Not modelled: fused operations of the compiled code.
-/

noncomputable section
open Classical
namespace GW
open F

/-- distributions.py:16-21 `smooth(dx, x, xmin)` (compare `smooth`). -/
def smoothR (f : Arith) (dx x xmin : F) : F :=
  let func := f.exp (f.r (f.r (dx / f.r (x - xmin)) + f.r (dx / f.r (f.r (x - xmin) - dx))))
  let s1 : F := if lt x xmin then 0 else 1
  if lt x (f.r (xmin + dx)) ∨ ge x xmin then f.r (1 / f.r (func + 1)) else s1

/-- parametric.py:49-53 `plpeak_primary_pdf` with a number `delta` (compare `plpeak_primary_pdf`). -/
def plpeak_primary_taperR (f : Arith) (pw : F → F → F) (erf : F → F) (m1 alpha mmin mmax mpp sigpp lam delta : F) : F :=
  f.r (f.r (f.r (f.r (1 - lam) * powerlaw_pdfR f pw m1 alpha mmin mmax) * smoothR f delta m1 mmin) + f.r (lam * truncnorm_pdfR f erf m1 mpp sigpp mmin mmax))

/-- parametric.py:39-46 `plpeak_primary_ratio_pdf` with a number `delta` (compare `plpeak_primary_ratio_pdf`). -/
def plpeak_primary_ratio_taperR (f : Arith) (pw : F → F → F) (erf : F → F) (m1 q alpha beta mmin mmax mpp sigpp lam delta : F) : F :=
  f.r (f.r (powerlaw_pdfR f pw q beta (f.r (mmin / m1)) 1 * smoothR f delta (f.r (q * m1)) mmin) * plpeak_primary_taperR f pw erf m1 alpha mmin mmax mpp sigpp lam delta)

end GW
end
