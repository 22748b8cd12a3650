import Verif.Model.RoundingLogSpline
import Verif.Model.RoundingPowerlaw

/-!
# Model of the power law with a spline in mass in rounded arithmetic

`PowerlawBasisSplinePrimaryPowerlawRatio` of `gwinferno/models/spline_perturbation.py` on its default basis, at one sample: every operation and library function is rounded.  Its design matrices are those of
the spline at the computed logarithm of the mass (lines 58-61), which are the bases of a `LogXBSpline` on the same knots.  Compare `PLMass` in `Verif.Model.SplinePerturbation`.
-/

noncomputable section
open Classical
namespace GW
open F

/-- spline_perturbation.py:99-101 and 117-118: power law times the exponential of the spline, at one mass. -/
def perturbedMassR (f : Arith) (pw : F → F → F) (s : Spline) (o : RTree s.N) (coefs : ℕ → F) (m : ℝ) (alpha mmin mmax : F) : F :=
  f.r (powerlaw_pdfR f pw (fin m) (-alpha) mmin mmax * f.exp (s.logXProjectR f o coefs m))

/-- spline_perturbation.py:105-120 `norm_p_m1`; `ms` is the stored grid, `og` the order of the sum. -/
def perturbedMassNormR (f : Arith) (pw : F → F → F) (s : Spline) (o : RTree s.N) (coefs : ℕ → F) {n : ℕ} (og : RTree n) (ms : ℕ → ℝ) (alpha mmin mmax : F) : F :=
  trapzR f og (fun j => perturbedMassR f pw s o coefs (ms j) alpha mmin mmax) ms

/-- spline_perturbation.py:85-103 `p_m1`. -/
def perturbedMassPdfR (f : Arith) (pw : F → F → F) (s : Spline) (o : RTree s.N) (coefs : ℕ → F) {n : ℕ} (og : RTree n) (ms : ℕ → ℝ) (m1 : ℝ) (alpha mmin mmax : F) : F :=
  f.r (perturbedMassR f pw s o coefs m1 alpha mmin mmax / perturbedMassNormR f pw s o coefs og ms alpha mmin mmax)

/-- spline_perturbation.py:137-150 `__call__`, with `p_q` of 122-135. -/
def perturbedMassRatioR (f : Arith) (pw : F → F → F) (s : Spline) (o : RTree s.N) (coefs : ℕ → F) {n : ℕ} (og : RTree n) (ms : ℕ → ℝ) (m2min : F) (m1 q : ℝ) (alpha beta mmin mmax : F) : F :=
  f.r (perturbedMassPdfR f pw s o coefs og ms m1 alpha mmin mmax * powerlaw_pdfR f pw (fin q) beta (f.r (m2min / fin m1)) 1)

end GW
end
