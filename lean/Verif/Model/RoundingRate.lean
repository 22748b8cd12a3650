import Verif.Model.RoundingLogSpline

/-!
# Model of the spline in redshift in rounded arithmetic

`BSplineRedshift` of `gwinferno/models/bsplines/single.py` on its default basis (`LogXBSpline`) with `normalize=False`, at one sample: every operation and library function is rounded.  The limits, the knots,
the grid of redshifts and the volume elements are the stored floating-point numbers.  Compare `ZSpline` in `Verif.Model.SplineModels`.
-/

noncomputable section
open Classical
namespace GW
open F

/-- single.py:453-469 `BSplineRedshift.normalization`: `zs` is `zgrid`, `V_` is `dVcdzgrid`, `o` and `og` the orders of the two sums. -/
def bsplineRedshiftNormR (f : Arith) (s : Spline) (o : RTree s.N) (coefs : ℕ → F) {n : ℕ} (og : RTree n) (zs : ℕ → ℝ) (V_ : ℕ → F) : F :=
  trapzR f og (fun j => f.r (f.r (V_ j / f.r (1 + fin (zs j))) * f.exp (einsumR f o (fun i => s.logXBasesR f i (zs j)) coefs))) zs

/-- single.py:471-492 `BSplineRedshift.__call__`; `lo`, `hi` are the limits of `pe_pdf` and `inj_pdf` (single.py:77-109), outside of which the exponent is zero. -/
def bsplineRedshiftCallR (f : Arith) (lo hi : ℝ) (s : Spline) (o : RTree s.N) (coefs : ℕ → F) {n : ℕ} (og : RTree n) (zs : ℕ → ℝ) (V_ : ℕ → F) (z : ℝ) (V : F) : F :=
  let e := if lo ≤ z ∧ z ≤ hi then s.logXProjectR f o coefs z else 0
  f.r (f.r (f.r (f.exp e * V) / f.r (1 + fin z)) / bsplineRedshiftNormR f s o coefs og zs V_)

end GW
end
