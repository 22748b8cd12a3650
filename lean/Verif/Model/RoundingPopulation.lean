import Verif.Model.RoundingSpline

/-!
# Model of the importance weights in rounded arithmetic

The examples multiply the densities of the parameters of a posterior sample or injection from left to right and divide by the stored sampling prior.
-/

noncomputable section
open Classical
namespace GW
open F

/-- simple_bspline_example.py:66 (and simple_powerlaw_peak_example.py) `p_m1q * p_a * p_ct * p_z / datadict["prior"]` for one sample, every operation rounded: `p` is the first
density, `ps` the others in order -/
def weightR (f : Arith) (p : F) (ps : List F) (prior : ℝ) : F := f.r (ps.foldl (fun a b => f.r (a * b)) p / fin prior)

end GW
end
