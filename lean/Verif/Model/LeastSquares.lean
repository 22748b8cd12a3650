import Mathlib.LinearAlgebra.Matrix.NonsingularInverse
import Mathlib.Data.Real.Basic

/-! # Model of `BasisSpline.get_coefficients` (gwinferno/interpolation.py:177-193) -/

open Matrix
noncomputable section
namespace GW

/-- interpolation.py:190-192: `BtBi = inv(matmul(B.T, B))`, `alpha = matmul(matmul(BtBi, B.T), ys)` where `B` is the
transposed design matrix, one row per data point.  (An exactly singular Gram matrix makes JAX return inf/nan; the
theorems assume it is invertible.) -/
def getCoefficients {m n : ℕ} (B : Matrix (Fin m) (Fin n) ℝ) (y : Fin m → ℝ) : Fin n → ℝ :=
  (((Bᵀ * B)⁻¹) * Bᵀ) *ᵥ y

/-- interpolation.py:193 the returned interpolated values `einsum("ji,i->j", B, alpha)`. -/
def fittedValues {m n : ℕ} (B : Matrix (Fin m) (Fin n) ℝ) (y : Fin m → ℝ) : Fin m → ℝ :=
  B *ᵥ getCoefficients B y

end GW
end
