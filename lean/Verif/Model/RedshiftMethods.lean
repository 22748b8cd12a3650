import Verif.Model.Scripts
import Verif.Model.SplineModels

/-!
# Model of the methods of the redshift models as Python finds them

`PowerlawSplineRedshiftModel` inherits from `PowerlawRedshiftModel` and overrides `normalization`, `prob` and `__call__` with an additional argument, but not `log_prob`.
Here an object carries its class, `self.normalization(...)` is looked up in that class, and arguments are bound to the parameters of the method found.
The bodies are those of `Verif.Model.Parametric` and `Verif.Model.SplineModels`.  A value of the wrong kind (an array for `lamb`, ...) is a `TypeError`; the arrays `z` have
one or two dimensions and the shape of the stored data.
-/

noncomputable section
open Classical
namespace GW
open F

/-- the values passed to the methods: an array of redshifts (with the number of dimensions), a number, a coefficient vector -/
inductive ZVal where
  | arr (twoD : Bool) (z : Arr ℝ)
  | num (x : ℝ)
  | coefs (cs : ℕ → ℝ)

/-- an object of one of the two classes -/
inductive ZObj where
  | powerlaw (m : ZModel)
  | spline (m : PLSpline)

/-- the arguments of a call: positional, and by keyword -/
structure ZArgs where
  pos : List ZVal
  kw : List (String × ZVal) := []

/-- Python's binding of the arguments to required parameters: their values, in the order of the parameters -/
def bindValues (names : List String) (a : ZArgs) : Except PyErr (List ZVal) := do
  bindCall (names.map fun n => ⟨n, false⟩) a.pos.length (a.kw.map Prod.fst)
  .ok (a.pos ++ (names.drop a.pos.length).filterMap fun n => a.kw.lookup n)

/-- `self.normalization(*args)`: parametric.py:123-124, or spline_perturbation.py:323-336 -/
def ZObj.normalization (o : ZObj) (a : ZArgs) : Except PyErr F :=
  match o with
  | .powerlaw m => do
    match ← bindValues ["lamb"] a with
    | [.num lamb] => .ok (fin (m.normalization lamb))
    | _ => .error .typeError
  | .spline m => do
    match ← bindValues ["lamb", "cs"] a with
    | [.num lamb, .coefs cs] => .ok (m.normalization lamb cs)
    | _ => .error .typeError

/-- what `self.zmax`, `self.dVdzs` refer to: the attributes set by `PowerlawRedshiftModel.__init__` (parametric.py:113-121) -/
def ZObj.attrs : ZObj → ZModel
  | .powerlaw m => m
  | .spline m => m.parent

/-- parametric.py:129-136 `log_prob(self, z, lamb)`, inherited by both classes: entry `i` of the result. -/
def ZObj.logProb (o : ZObj) (a : ZArgs) (i : ℕ) : Except PyErr F := do
  match ← bindValues ["z", "lamb"] a with
  | [.arr twoD z, .num lamb] =>
    let dVdz := o.attrs.dVdz twoD i
    let norm ← o.normalization ⟨[.num lamb], []⟩
    .ok (if z.get i ≤ o.attrs.zmax then log (fin dVdz) + fin (lamb - 1) * log (1 + fin (z.get i)) - log norm else nanToNum ninf)
  | _ => .error .typeError

/-- `self(*args)`: parametric.py:138-145, or spline_perturbation.py:354-372: entry `i` of the result. -/
def ZObj.call (o : ZObj) (a : ZArgs) (i : ℕ) : Except PyErr F :=
  match o with
  | .powerlaw m => do
    match ← bindValues ["z", "lamb"] a with
    | [.arr twoD z, .num lamb] =>
      let norm ← o.normalization ⟨[.num lamb], []⟩
      .ok (if z.get i ≤ o.attrs.zmax then fin (ZModel.prob (z.get i) (m.dVdz twoD i) lamb) / norm else 0)
    | _ => .error .typeError
  | .spline m => do
    match ← bindValues ["z", "lamb", "cs"] a with
    | [.arr twoD z, .num lamb, .coefs cs] =>
      let norm ← o.normalization ⟨[.num lamb, .coefs cs], []⟩
      .ok (if z.get i ≤ o.attrs.zmax then m.prob twoD z lamb cs i / norm else 0)
    | _ => .error .typeError

end GW
end
