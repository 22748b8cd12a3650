import Verif.Model.Rounding
import Verif.Model.Distributions

/-!
# Model of `powerlaw_pdf` in rounded arithmetic

The function of `gwinferno/distributions.py` as in `Verif.Model.Distributions`, but with floating-point arrays: the result of every operation is rounded (`Arith.r`, see
`Verif.Model.Rounding`), and `log` and the power are those of the library.  What is assumed about rounding and library is stated in the properties, not here.
Not modelled: fused operations of the compiled code, and arguments that are Python numbers (whose operations would be in double precision).
-/

noncomputable section
open Classical
namespace GW
open F

/-- distributions.py:100-119 `powerlaw_pdf(xx, alpha, low, high, floor)` with rounded operations; `pw` is the library's power. -/
def powerlaw_pdfR (f : Arith) (pw : F → F → F) (xx alpha low high : F) (floor : F := 0) : F :=
  let prob := pw xx alpha
  let s := f.r (1 + alpha)
  let norm := if feq alpha (-1) then f.r (1 / f.log (f.r (high / low)))
    else f.r (s / f.r (pw high s - pw low s))
  let prob := f.r (prob * norm)
  if lt xx low ∨ gt xx high then floor else prob

end GW
end
