import Verif.Model.RoundingPowerlaw
import Verif.Model.Parametric

/-!
# Model of the soft truncation in rounded arithmetic

The logistic functions of `gwinferno/distributions.py` as in `Verif.Model.Distributions`, but with floating-point arguments of one format: the result of every operation is rounded
(`Arith.r`, see `Verif.Model.Rounding`); `exp`, `log` and the power are those of the library.  What is assumed about rounding and library is stated in the properties.
Not modelled: fused operations of the compiled code, and products of Python numbers, which are not rounded to single precision (here they are: the error can only be smaller).
-/

noncomputable section
open Classical
namespace GW
open F

/-- distributions.py:24-37 `logistic_function(x, L, k, x0)` (compare `logistic_function`). -/
def logistic_functionR (f : Arith) (x L k x0 : F) : F := f.r (L / f.r (1 + f.exp (f.r (-k * f.r (x - x0)))))

/-- distributions.py:40-53 `logistic_unit(x, x0, sgn, sc)` (compare `logistic_unit`). -/
def logistic_unitR (f : Arith) (x x0 sgn sc : F) : F := logistic_functionR f x 1 (f.r (f.r (-1 * sgn) * sc)) x0

/-- distributions.py:56-72 `log_logistic_unit(x, x0, sgn, sc)` (compare `log_logistic_unit`). -/
def log_logistic_unitR (f : Arith) (x x0 sgn sc : F) : F :=
  let diff := f.r (x - x0)
  if lt (f.r (f.r (diff * sgn) * sc)) 0 then f.log (logistic_unitR f x x0 sgn sc)
  else f.r (f.r (f.r (-sgn * sc) * f.r (x - x0)) + f.log (logistic_unitR f x x0 (-sgn) sc))

/-- distributions.py:75-97 `powerlaw_logit_pdf` (compare `powerlaw_logit_pdf`); `low`/`high` may be `None`. -/
def powerlaw_logit_pdfR (f : Arith) (pw : F → F → F) (xx alpha : F) (low high : Option F) (low_fall_off high_fall_off : F) : F :=
  let prob := pw xx alpha
  let prob := match low with
    | none => prob
    | some low => f.r (prob * logistic_unitR f xx low (-1) low_fall_off)
  match high with
    | none => prob
    | some high => f.r (prob * logistic_unitR f xx high 1 high_fall_off)

/-- parametric.py:33-36 `powerlaw_primary_ratio_falloff_pdf` (compare `powerlaw_primary_ratio_falloff_pdf`). -/
def powerlaw_primary_ratio_falloff_pdfR (f : Arith) (pw : F → F → F) (m1 q alpha beta mmin mmax fall_off : F) : F :=
  f.r (powerlaw_pdfR f pw q beta (f.r (mmin / m1)) 1 * powerlaw_logit_pdfR f pw m1 alpha (some mmin) (some mmax) fall_off 4)

end GW
end
