import Mathlib.Analysis.Real.Sqrt
import Mathlib.Data.List.OfFn

/-! # Model of `find_map` (gwinferno/pipeline/analysis.py:24-47)

`find_map` runs stochastic variational inference with a point-mass guide (`AutoDelta`), the ELBO and Adam.  For a point-mass guide the ELBO is the log joint density of the model at the point,
so each iteration is one Adam step on the gradient of the negative log joint density, taken with respect to the unconstrained coordinates.

Simplifications: real arithmetic; every latent site is a scalar (an array-valued site is one site per entry, the update of Adam is entry by entry); the gradient is an arbitrary function of the
unconstrained point, which covers every numpyro model, also one with cuts; the starting point (the median of 15 prior draws) is an input. -/

noncomputable section
namespace GW

/-- what Adam keeps for one coordinate: the value, the running mean of the gradients and of their squares (`jax/example_libraries/optimizers.py`, `adam`) -/
structure AdamState where
  x : ℝ
  m : ℝ
  v : ℝ

/-- start of Adam: both running means are zero -/
def adamInit (x : ℝ) : AdamState := ⟨x, 0, 0⟩

/-- one step of Adam with its default constants `b1 = 0.9`, `b2 = 0.999`, `eps = 1e-8`; `i` counts the steps from zero.  Used by `find_map` through `optimizer = Adam(lr)`
(gwinferno/pipeline/analysis.py:44). -/
def adamStep (lr : ℝ) (i : ℕ) (g : ℝ) (s : AdamState) : AdamState :=
  let m := (1 - 9 / 10) * g + 9 / 10 * s.m
  let v := (1 - 999 / 1000) * g ^ 2 + 999 / 1000 * s.v
  let mhat := m / (1 - (9 / 10) ^ (i + 1))
  let vhat := v / (1 - (999 / 1000) ^ (i + 1))
  ⟨s.x - lr * mhat / (Real.sqrt vhat + 1 / 10 ^ 8), m, v⟩

/-- `svi.run(rng_key, Niter, *model_args)` (gwinferno/pipeline/analysis.py:46): `Niter` steps, each with the gradient of the loss at the present point -/
def sviRun {n : ℕ} (lr : ℝ) (grad : (Fin n → ℝ) → Fin n → ℝ) (x0 : Fin n → ℝ) : ℕ → Fin n → AdamState
  | 0 => fun j => adamInit (x0 j)
  | i + 1 => fun j => adamStep lr i (grad (fun k => (sviRun lr grad x0 i k).x) j) (sviRun lr grad x0 i j)

/-- a latent sample site: its name and the map from the real line to its support -/
structure Latent where
  name : String
  constrain : ℝ → ℝ

/-- `find_map` (gwinferno/pipeline/analysis.py:24-47) with `guide = autoguide.AutoDelta(numpyro_model)` (line 43): the parameters of the guide are called `<name>_auto_loc`; what is returned are
their constrained values after `Niter` steps (line 47) -/
def findMap {n : ℕ} (sites : Fin n → Latent) (grad : (Fin n → ℝ) → Fin n → ℝ) (x0 : Fin n → ℝ) (Niter : ℕ := 100) (lr : ℝ := 1 / 100) : List (String × ℝ) :=
  List.ofFn fun j => ((sites j).name ++ "_auto_loc", (sites j).constrain (sviRun lr grad x0 Niter j).x)

end GW
end
