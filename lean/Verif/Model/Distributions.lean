import Verif.Special

/-! # Model of `gwinferno/distributions.py` (elementwise, over model floats) -/

noncomputable section
open Classical
namespace GW
open F

/-- distributions.py:16-21 `smooth(dx, x, xmin)`.  Note the `|` (logical or) between the two window tests. -/
def smooth (dx x xmin : F) : F :=
  let func := exp (dx / (x - xmin) + dx / (x - xmin - dx))
  let s1 : F := if lt x xmin then 0 else 1
  if lt x (xmin + dx) ∨ ge x xmin then pow (func + 1) (-1) else s1

/-- distributions.py:24-37 `logistic_function(x, L, k, x0)`. -/
def logistic_function (x L k x0 : F) : F := L / (1 + exp (-k * (x - x0)))

/-- distributions.py:40-53 `logistic_unit(x, x0, sgn, sc)`. -/
def logistic_unit (x x0 sgn sc : F) : F := logistic_function x 1 (-1 * sgn * sc) x0

/-- distributions.py:56-72 `log_logistic_unit(x, x0, sgn, sc)`. -/
def log_logistic_unit (x x0 sgn sc : F) : F :=
  let diff := x - x0
  if lt (diff * sgn * sc) 0 then log (logistic_unit x x0 sgn sc)
  else -sgn * sc * (x - x0) + log (logistic_unit x x0 (-sgn) sc)

/-- distributions.py:75-97 `powerlaw_logit_pdf`; `low`/`high` may be `None`. -/
def powerlaw_logit_pdf (xx alpha : F) (low high : Option F) (low_fall_off high_fall_off : F) : F :=
  let prob := pow xx alpha
  let prob := match low with
    | none => prob
    | some low => prob * logistic_unit xx low (-1) low_fall_off
  match high with
    | none => prob
    | some high => prob * logistic_unit xx high 1 high_fall_off

/-- distributions.py:100-119 `powerlaw_pdf(xx, alpha, low, high, floor)`. -/
def powerlaw_pdf (xx alpha low high : F) (floor : F := 0) : F :=
  let prob := pow xx alpha
  let norm := if feq alpha (-1) then 1 / log (high / low)
    else (1 + alpha) / (pow high (1 + alpha) - pow low (1 + alpha))
  let prob := prob * norm
  if lt xx low ∨ gt xx high then floor else prob

/-- distributions.py:122-143 `truncnorm_pdf(xx, mu, sig, low, high, log)`. -/
def truncnorm_pdf (xx mu sig low high : F) (logFlag : Bool := false) : F :=
  let u : F → F := fun v => if logFlag then log v else v
  let prob := exp (-(pow (u xx - mu) 2) / (2 * pow sig 2))
  let continuous_norm := if logFlag then 1 / (xx * sig * pow (2 * fin Real.pi) (fin (1/2)))
    else 1 / (sig * pow (2 * fin Real.pi) (fin (1/2)))
  let left_tail_cdf := fin (1/2) * (1 + erfF ((u low - mu) / (sig * pow 2 (fin (1/2)))))
  let right_tail_cdf := fin (1/2) * (1 + erfF ((u high - mu) / (sig * pow 2 (fin (1/2)))))
  let denom := right_tail_cdf - left_tail_cdf
  let norm := continuous_norm / denom
  if gt xx high ∨ lt xx low then 0 else prob * norm

/-- distributions.py:146-162 `betadist(xx, alpha, beta, scale, floor)`. -/
def betadist (xx alpha beta : F) (scale : F := 1) (floor : F := 0) : F :=
  let ln_beta := (alpha - 1) * log xx + (beta - 1) * log (scale - xx) - (alpha + beta - 1) * log scale
  let ln_beta := ln_beta - betalnF alpha beta
  if le xx scale ∧ ge xx 0 then exp ln_beta else floor

end GW
end
