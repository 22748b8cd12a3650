import Verif.Num
import Mathlib.MeasureTheory.Integral.IntervalIntegral.Basic

/-!
# Shared specification vocabulary

Small definitions, independent of the model of any particular function, used in property statements.
-/

open MeasureTheory
noncomputable section
namespace GW

/-- `p` evaluated on reals is a probability density on the closed interval `[a,b]`: at every point it is an
ordinary finite number `≥ 0` (never nan/inf), it is integrable and its integral is exactly 1. -/
structure IsPdfOn (p : ℝ → F) (a b : ℝ) : Prop where
  finite : ∀ x, a ≤ x → x ≤ b → ∃ v : ℝ, 0 ≤ v ∧ p x = F.fin v
  integrable : IntervalIntegrable (fun x => (p x).toReal) volume a b
  integral : ∫ x in a..b, (p x).toReal = 1

/-- The same, with finiteness required only in the open interval. -/
structure IsPdfOnOpen (p : ℝ → F) (a b : ℝ) : Prop where
  finite : ∀ x, a < x → x < b → ∃ v : ℝ, 0 ≤ v ∧ p x = F.fin v
  integrable : IntervalIntegrable (fun x => (p x).toReal) volume a b
  integral : ∫ x in a..b, (p x).toReal = 1

end GW
end
