import Verif.Model.Rounding
import Verif.Model.NumpyroDistributions

/-!
# Model of the P-spline penalty in rounded arithmetic

`apply_difference_prior` of `gwinferno/models/bsplines/smoothing.py` as in `Verif.Model.NumpyroDistributions`, but with floating-point arguments of one format: the result of every operation is
rounded (`Arith.r`), the dot product in any order (`RTree`).  Not modelled: fused operations of the compiled code; an empty dot product (at least one difference is formed).
-/

noncomputable section
open Classical
namespace GW
open F

/-- `jnp.diff(c, n=degree)` (compare `diffN`). -/
def diffNR (f : Arith) : ℕ → (ℕ → F) → (ℕ → F)
  | 0, c => c
  | n + 1, c => diffNR f n (fun i => f.r (c (i + 1) - c i))

/-- models/bsplines/smoothing.py:8-28 `apply_difference_prior(coefs, inv_var, degree)` for `m + degree` coefficients (compare `apply_difference_prior`). -/
def difference_priorR (f : Arith) {m : ℕ} (o : RTree m) (coefs : ℕ → F) (inv_var : F) (degree : ℕ := 1) : F :=
  let delta_c := diffNR f degree coefs
  f.r (f.r (fin (-1 / 2) * inv_var) * f.sum (fun i : Fin m => f.r (delta_c i * delta_c i)) o)

end GW
end
