import Verif.Model.Rounding
import Verif.Model.Distributions

/-!
# Model of `truncnorm_pdf` in rounded arithmetic

The function of `gwinferno/distributions.py` as in `Verif.Model.Distributions`, with floating-point arrays: the result of every operation is rounded (`Arith.r`, see
`Verif.Model.Rounding`); `exp`, `log` and `erf` are those of the library; squares are products.  The Python constants `(2 π) ** 0.5` and `2 ** 0.5` are rounded once.
What is assumed about rounding and library is stated in the properties.  Not modelled: fused operations of the compiled code, and arguments that are Python numbers.
-/

noncomputable section
open Classical
namespace GW
open F

/-- distributions.py:122-143 `truncnorm_pdf(xx, mu, sig, low, high, log)` with rounded operations; `erf` is the library's. -/
def truncnorm_pdfR (f : Arith) (erf : F → F) (xx mu sig low high : F) (logFlag : Bool := false) : F :=
  let u : F → F := fun v => if logFlag then f.log v else v
  let rt2pi := f.rd (Real.sqrt (2 * Real.pi))
  let rt2 := f.rd (Real.sqrt 2)
  let d := f.r (u xx - mu)
  let prob := f.exp (f.r (-(f.r (d * d)) / f.r (2 * f.r (sig * sig))))
  let continuous_norm := if logFlag then f.r (1 / f.r (f.r (xx * sig) * rt2pi)) else f.r (1 / f.r (sig * rt2pi))
  let cdf : F → F := fun v => f.r (fin (1 / 2) * f.r (1 + erf (f.r (f.r (u v - mu) / f.r (sig * rt2)))))
  let denom := f.r (cdf high - cdf low)
  let norm := f.r (continuous_norm / denom)
  if gt xx high ∨ lt xx low then 0 else f.r (prob * norm)

end GW
end
