import Verif.Arr
import Verif.Model.Analysis
import Mathlib.Analysis.SpecialFunctions.Pow.Real
import Mathlib.Analysis.SpecialFunctions.Trigonometric.Basic

/-!
# Model of `gwinferno/cosmology.py`

The object is its parameters and its three tables; every method returns the object after the call.  Exact real
arithmetic; step sizes are positive (`arange` with a non-positive step is not modelled).
-/

noncomputable section
open Classical
namespace GW.Cosmo
open F

/-- cosmology.py:13 -/
def C_SI : ℝ := 299792458

/-- cosmology.py:34-38: the constructor's physical arguments. -/
structure Par where
  Ho : ℝ
  OmegaMatter : ℝ
  OmegaRadiation : ℝ
  OmegaLambda : ℝ

/-- cosmology.py:35 -/
def Par.c_over_Ho (p : Par) : ℝ := C_SI / p.Ho
/-- cosmology.py:39 -/
def Par.OmegaKappa (p : Par) : ℝ := 1 - (p.OmegaMatter + p.OmegaRadiation + p.OmegaLambda)

/-- cosmology.py:79-86 `z2E`. -/
def Par.z2E (p : Par) (z : ℝ) : ℝ :=
  let one_plus_z := 1 + z
  (p.OmegaLambda + p.OmegaKappa * one_plus_z ^ 2 + p.OmegaMatter * one_plus_z ^ 3 + p.OmegaRadiation * one_plus_z ^ 4)
    ^ (0.5 : ℝ)

/-- cosmology.py:88-93 `dDcdz`. -/
def Par.dDcdz (p : Par) (z : ℝ) : ℝ := p.c_over_Ho / p.z2E z

/-- cosmology.py:101 `dVcdz` for a given distance. -/
def Par.dVcdzAt (p : Par) (z Dc : ℝ) : ℝ := 4 * Real.pi * Dc ^ 2 * p.dDcdz z

/-- the loop variable of `extend` (cosmology.py:74-75): rows z, Dc, Vc -/
structure Tab where
  z : ℕ → ℝ
  Dc : ℕ → ℝ
  Vc : ℕ → ℝ

/-- cosmology.py:48-63 `update`. -/
def Par.update (p : Par) (i : ℕ) (x : Tab) : Tab :=
  let dz := x.z 1 - x.z 0
  let dDcdz := p.dDcdz (x.z i)
  let dVcdz := p.dVcdzAt (x.z i) (x.Dc i)
  let new_dDcdz := p.dDcdz (x.z i + dz)
  let Dc := Function.update x.Dc (i + 1) (x.Dc i + 0.5 * (dDcdz + new_dDcdz) * dz)
  let new_dVcdz := p.dVcdzAt (x.z i + dz) (Dc (i + 1))
  let Vc := Function.update x.Vc (i + 1) (x.Vc i + 0.5 * (dVcdz + new_dVcdz) * dz)
  ⟨x.z, Dc, Vc⟩

/-- `jax.lax.fori_loop(0, n, f, x)` -/
def foriLoop {α : Type} (f : ℕ → α → α) (x : α) : ℕ → α
  | 0 => x
  | n + 1 => f n (foriLoop f x n)

/-- a `Cosmology` object: parameters, table length, table -/
structure Obj where
  par : Par
  n : ℕ
  tab : Tab

/-- cosmology.py:65-77 `extend(max_z, dz)`; `jnp.arange(0, max_z, dz)` has `ceil(max_z / dz)` entries `i * dz`. -/
def Obj.extend (s : Obj) (max_z dz : ℝ) : Obj :=
  let n := ⌈max_z / dz⌉₊
  { s with n := n, tab := foriLoop s.par.update ⟨fun i => i * dz, fun _ => 0, fun _ => 0⟩ (n - 1) }

/-- cosmology.py:33-43 `__init__`. -/
def init (p : Par) (max_z dz : ℝ) : Except PyErr Obj :=
  if p.OmegaKappa = 0 then .ok (Obj.extend ⟨p, 0, ⟨fun _ => 0, fun _ => 0, fun _ => 0⟩⟩ max_z dz)
  else .error .assertionError

/-- cosmology.py:44-46 the property `DL`. -/
def Obj.DL (s : Obj) (i : ℕ) : ℝ := s.tab.Dc i * (1 + s.tab.z i)

/-- `jnp.max` -/
def maxList : List ℝ → Except PyErr ℝ
  | [] => .error .valueError
  | x :: xs => .ok (xs.foldl max x)

/-- an array's first `n` entries -/
def entries (n : ℕ) (a : ℕ → ℝ) : List ℝ := (List.range n).map a

/-- `if jnp.max(z) > jnp.max(self.z): self.extend(max_z=…, dz=dz)` (cosmology.py:115-117, 135-137) -/
def Obj.cover (s : Obj) (z : List ℝ) (dz : ℝ) : Except PyErr Obj :=
  match maxList z with
  | .error e => .error e
  | .ok max_z => match maxList (entries s.n s.tab.z) with
    | .error e => .error e
    | .ok top => .ok (if top < max_z then s.extend max_z dz else s)

/-- cosmology.py:111-120 `z2Dc`. -/
def Obj.z2Dc (s : Obj) (z : List ℝ) (dz : ℝ) : Obj × Except PyErr (List ℝ) :=
  match s.cover z dz with
  | .error e => (s, .error e)
  | .ok s' => (s', .ok (z.map fun x => interp s'.n s'.tab.z s'.tab.Dc x))

/-- cosmology.py:131-138 `z2DL`. -/
def Obj.z2DL (s : Obj) (z : List ℝ) (dz : ℝ) : Obj × Except PyErr (List ℝ) :=
  match s.cover z dz with
  | .error e => (s, .error e)
  | .ok s' => (s', .ok (z.map fun x => interp s'.n s'.tab.z s'.DL x))

/-- cosmology.py:122-129 `DL2z`; `extend` has no parameter `max_DL`, so the extending branch raises `TypeError`.
The step size is only used in that branch. -/
def Obj.DL2z (s : Obj) (DL : List ℝ) : Obj × Except PyErr (List ℝ) :=
  match maxList DL with
  | .error e => (s, .error e)
  | .ok max_DL => match maxList (entries s.n s.DL) with
    | .error e => (s, .error e)
    | .ok top =>
      if top < max_DL then (s, .error .typeError)
      else (s, .ok (DL.map fun d => interp s.n s.DL s.tab.z d))

/-- cosmology.py:99-100, 107-108: `if Dc is None: Dc = self.z2Dc(z, dz=dz)`. -/
def Obj.distance (s : Obj) (z : List ℝ) (Dc : Option (List ℝ)) (dz : ℝ) : Obj × Except PyErr (List ℝ) :=
  match Dc with
  | some d => (s, .ok d)
  | none => s.z2Dc z dz

/-- cosmology.py:95-101 `dVcdz(z, Dc=None, dz)`. Simplification: a given `Dc` has the shape of `z`. -/
def Obj.dVcdz (s : Obj) (z : List ℝ) (Dc : Option (List ℝ)) (dz : ℝ) : Obj × Except PyErr (List ℝ) :=
  let r := s.distance z Dc dz
  (r.1, r.2.map fun d => List.zipWith s.par.dVcdzAt z d)

/-- cosmology.py:103-109 `logdVcdz`, with the float logarithm (`log 0 = -inf`). -/
def Obj.logdVcdz (s : Obj) (z : List ℝ) (Dc : Option (List ℝ)) (dz : ℝ) : Obj × Except PyErr (List F) :=
  let r := s.distance z Dc dz
  (r.1, r.2.map fun d => List.zipWith
    (fun z Dc => log (4 * fin Real.pi) + 2 * log (fin Dc) + log (fin (s.par.dDcdz z))) z d)

/-- a method call -/
inductive Op where
  | extend (max_z dz : ℝ)
  | z2Dc (z : List ℝ) (dz : ℝ)
  | z2DL (z : List ℝ) (dz : ℝ)
  | DL2z (d : List ℝ)
  | dVcdz (z : List ℝ) (Dc : Option (List ℝ)) (dz : ℝ)
  | logdVcdz (z : List ℝ) (Dc : Option (List ℝ)) (dz : ℝ)

/-- the object after a call (also when the call raised) -/
def Obj.step (s : Obj) : Op → Obj
  | .extend max_z dz => s.extend max_z dz
  | .z2Dc z dz => (s.z2Dc z dz).1
  | .z2DL z dz => (s.z2DL z dz).1
  | .DL2z d => (s.DL2z d).1
  | .dVcdz z Dc dz => (s.dVcdz z Dc dz).1
  | .logdVcdz z Dc dz => (s.logdVcdz z Dc dz).1

/-- the object after a history of calls -/
def Obj.run (s : Obj) (h : List Op) : Obj := h.foldl Obj.step s

/-- cosmology.py:14-17, 143-148: the default object's parameters. -/
def planck2015 : Par := ⟨67.74 / 1e-3, 0.3089, 0.0, 1.0 - 0.3089⟩
/-- cosmology.py:19-22, 150-155. -/
def planck2015LVK : Par := ⟨67.90 / 1e-3, 0.3065, 0.0, 1.0 - 0.3065⟩

end GW.Cosmo
end
