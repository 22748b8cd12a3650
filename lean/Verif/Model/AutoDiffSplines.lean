import Verif.Model.AutoDiffDensities
import Verif.Model.Scripts

/-!
# Model of the gradients of the spline models in their coefficients

The spline models as differentiable programs of the hyper-parameters (reverse mode, see `Model/AutoDiff.lean`).  A coefficient vector is a family
of programs: a sampled coefficient is a parameter, a fixed one a constant.  The design matrices are data: they carry no derivative.  Simplification:
the normalising integral, one number shared by all samples, is recomputed for each of them, so the cotangents are added after its pullback instead
of before.
-/

open Finset
noncomputable section
open Classical
namespace GW
open F

variable {α : Type}

/-- `jnp.sum` over entries computed from the same parameters -/
def sumD (n : ℕ) (p : ℕ → Diff α Unit) : Diff α Unit :=
  ⟨fun e _ => ∑ i ∈ range n, (p i).f e (), fun e ct a => ∑ i ∈ range n, (p i).vjp e ct a⟩

/-- `jnp.einsum("i...,i->...", bases, coefs)` at one sample (interpolation.py:304, 393) -/
def einsumD (N : ℕ) (bases : ℕ → F) (c : ℕ → Diff α Unit) : Diff α Unit := sumD N fun i => .bin .mul (.const (bases i)) (c i)

/-- `trapezoid(y, x)`: `0.5 * sum(diff(x) * (y[1:] + y[:-1]))` -/
def trapzD (n : ℕ) (y : ℕ → Diff α Unit) (x : ℕ → F) : Diff α Unit :=
  .bin .mul (.const (fin 0.5)) (sumD (n - 1) fun i => .bin .mul (.const (x (i + 1) - x i)) (.bin .add (y (i + 1)) (y i)))

/-- `jnp.nan_to_num(v, nan=-inf, posinf=-inf)` (interpolation.py:393): `where`s with constants -/
def nanToNumLogYD : Diff Unit Unit := ⟨fun x a => nanToNumLogY (x a), fun x ct a => if isfinite (x a) then ct a else 0⟩

/-- `jnp.exp` where it underflows to 0 at the most negative float -/
def expUnderflowD : Diff Unit Unit := ⟨fun x a => expUnderflow (x a), fun x ct a => ct a * expUnderflow (x a)⟩

/-- interpolation.py:293-304, 381-394 `_project(bases, coefs)`. -/
def Interp.rawProjectD (I : Interp) (bases : ℕ → F) (c : ℕ → Diff α Unit) : Diff α Unit :=
  match I.kind with
  | .b | .logX => einsumD I.s.N bases c
  | .logY | .logXY => ((einsumD I.s.N bases c).andThen nanToNumLogYD).andThen expUnderflowD

/-- interpolation.py:280-291 `norm(coefs)`. -/
def Interp.normD (I : Interp) (c : ℕ → Diff α Unit) : Diff α Unit :=
  if I.normalize then
    .bin .div (.const 1) (trapzD I.grid.len (fun j => I.rawProjectD (fun i => I.bases i (I.grid.get j)) c) fun j => fin (I.grid.get j))
  else .const 1

/-- interpolation.py:306-317 `project(bases, coefs)`. -/
def Interp.projectD (I : Interp) (bases : ℕ → F) (c : ℕ → Diff α Unit) : Diff α Unit := .bin .mul (I.rawProjectD bases c) (I.normD c)

/-- interpolation.py:209-220 `eval(x, coefs)`. -/
def Interp.evalD (I : Interp) (c : ℕ → Diff α Unit) (x : ℝ) : Diff α Unit := I.projectD (fun i => I.bases i x) c

/-- `jnp.zeros(mask.shape).at[mask].set(v)`: the cotangent of an entry goes to the value put there -/
def scatterD : List Bool → List (Diff α Unit) → List (Diff α Unit)
  | true :: m, v :: vs => v :: scatterD m vs
  | true :: m, [] => .const 0 :: scatterD m []
  | false :: m, vs => .const 0 :: scatterD m vs
  | [], _ => []

/-- single.py:77-92 `pe_pdf`, 94-109 `inj_pdf`, 111-128 `__call__`: the program of every entry of the returned array. -/
def Base1D.callD (m : Base1D) (c : ℕ → Diff α Unit) (pe : Bool) : List (Diff α Unit) :=
  if pe then scatterD m.validXX (m.peDesign.map fun b => m.interp.projectD b c)
  else scatterD m.validInj (m.injDesign.map fun b => m.interp.projectD b c)

/-- elementwise product -/
def mulArrD (a b : List (Diff α Unit)) : List (Diff α Unit) := List.zipWith (Diff.bin .mul) a b

/-- separable.py:134-153, 273-292 `__call__`. -/
def Pair.indCallD (p : Pair) (pcoefs scoefs : ℕ → Diff α Unit) (pe : Bool) : List (Diff α Unit) :=
  mulArrD (p.m1.callD pcoefs pe) (p.m2.callD scoefs pe)

/-- separable.py:513-530 `__call__`. -/
def Pair.primaryRatioCallD (p : Pair) (mcoefs qcoefs : ℕ → Diff α Unit) (pe : Bool) : List (Diff α Unit) :=
  mulArrD (p.m2.callD qcoefs pe) (p.m1.callD mcoefs pe)

/-- `dVdz * jnp.power(1.0 + z, lamb - 1) * jnp.exp(project(...))` (spline_perturbation.py:334-335, 352) -/
def PLSpline.weightD (m : PLSpline) (dV z : ℝ) (bases : ℕ → F) (lamb : Diff α Unit) (c : ℕ → Diff α Unit) : Diff α Unit :=
  .bin .mul (.bin .mul (.const (fin dV)) (.bin .pow (.const (1 + fin z)) (.bin .sub lamb (.const 1)))) ((m.interp.projectD bases c).andThen .exp)

/-- spline_perturbation.py:323-336 `normalization`. -/
def PLSpline.normalizationD (m : PLSpline) (lamb : Diff α Unit) (c : ℕ → Diff α Unit) : Diff α Unit :=
  trapzD m.parent.zs.len (fun j => m.weightD (m.parent.dV (m.parent.zs.get j)) (m.parent.zs.get j) (fun i => m.interp.bases i (m.parent.zs.get j)) lamb c)
    fun j => fin (m.parent.zs.get j)

/-- spline_perturbation.py:338-352 `prob`. -/
def PLSpline.probD (m : PLSpline) (twoD : Bool) (z : Arr ℝ) (lamb : Diff α Unit) (c : ℕ → Diff α Unit) (i : ℕ) : Diff α Unit :=
  m.weightD (m.parent.dVdz twoD i) (z.get i) (fun k => m.interp.bases k ((if twoD then m.parent.zpe else m.parent.zinj).get i)) lamb c

/-- spline_perturbation.py:354-372 `__call__`: a `where`, so both branches are pulled back. -/
def PLSpline.callD (m : PLSpline) (twoD : Bool) (z : Arr ℝ) (lamb : Diff α Unit) (c : ℕ → Diff α Unit) (i : ℕ) : Diff α Unit :=
  .sel (fun _ => z.get i ≤ m.parent.zmax) (.bin .div (m.probD twoD z lamb c i) (m.normalizationD lamb c)) (.const 0)

/-- a coefficient: one of the sampled parameters, or a fixed number (the first redshift coefficient, pipeline/utils.py) -/
inductive CoefEntry (α : Type) where
  | par (a : α)
  | num (r : ℝ)

/-- its program -/
def CoefEntry.prog : CoefEntry α → Diff α Unit
  | .par a => .var a
  | .num r => .const (fin r)

/-- its value at the parameters `t` -/
def CoefEntry.val (t : α → ℝ) : CoefEntry α → ℝ
  | .par a => t a
  | .num r => r

/-- the programs of the coefficients: entry `i`, 0 beyond the end -/
def coefD (cs : List (Diff α Unit)) (i : ℕ) : Diff α Unit := cs.getD i (.const 0)

/-- simple_bspline_example.py:58-68 `get_weights`: the program of every weight. -/
def bsplineWeightsD (mass mag tilt : Pair) (zm : PLSpline) (mass_cs q_cs a1_cs a2_cs t1_cs t2_cs z_cs : List (Diff α Unit)) (lamb : Diff α Unit)
    (pe : Bool) (d : PyDict (Arr ℝ)) : Except PyErr (List (Diff α Unit)) := do
  let p_m1q := mass.primaryRatioCallD (coefD mass_cs) (coefD q_cs) pe
  let p_a := mag.indCallD (coefD a1_cs) (coefD a2_cs) pe
  let p_ct := tilt.indCallD (coefD t1_cs) (coefD t2_cs) pe
  let z ← need' d "redshift"
  let p_z := (List.range z.len).map (zm.callD pe z lamb (coefD z_cs))
  let prior ← need' d "prior"
  .ok (List.zipWith (Diff.bin .div) (mulArrD (mulArrD (mulArrD p_m1q p_a) p_ct) p_z) ((List.range prior.len).map fun i => .const (fin (prior.get i))))

/-- `jnp.diff(coefs, n=degree)` -/
def diffD : ℕ → (ℕ → Diff α Unit) → ℕ → Diff α Unit
  | 0, c => c
  | d + 1, c => diffD d fun i => .bin .sub (c (i + 1)) (c i)

/-- models/bsplines/smoothing.py:8-28 `apply_difference_prior(coefs, inv_var, degree)`. -/
def differencePriorD (N : ℕ) (c : ℕ → Diff α Unit) (inv_var : Diff α Unit) (degree : ℕ := 1) : Diff α Unit :=
  .bin .mul (.bin .mul (.const (fin (-0.5))) inv_var) (sumD (N - degree) fun i => .bin .mul (diffD degree c i) (diffD degree c i))

end GW
end
