import Verif.Model.NaturalCubic

/-! # Model of `NaturalCubicUnivariateSpline` as a JAX pytree (gwinferno/interpolation.py:13, 20-50)

`@register_pytree_node_class` registers `tree_flatten` and `tree_unflatten` with JAX, which calls them whenever an instance is an argument or a result of a transformed function (`jit`, `vmap`,
`grad`, `lax.scan`) or is passed to `jax.tree_util`.

Simplification: a Python value is an array, `None`, or a tuple of values. -/

noncomputable section
namespace GW

/-- the Python values that appear here -/
inductive TreeVal where
  | arr (a : Arr ℝ)
  | none
  | tup (l : List TreeVal)

/-- the errors that appear here -/
inductive TreeErr where
  /-- `RuntimeError`: "PyTree custom to_iterable function should return a pair" -/
  | runtime
  /-- `TypeError`: wrong number of arguments -/
  | type
  /-- `AssertionError` of the constructor -/
  | assertion
  /-- `ValueError` or another error of unpacking the children -/
  | value
  deriving DecidableEq

/-- interpolation.py:20-41 `__init__(x, y, coefficients=None)`: with given coefficients they are stored as they are, and the assertion on the number of points is skipped -/
def NatSpline.initWith (x y : Arr ℝ) (coefficients : Option (ℕ → ℝ)) : Except TreeErr NatSpline :=
  match coefficients with
  | none => match NatSpline.init x y with
    | .ok s => .ok s
    | .error _ => .error .assertion
  | some c => if x.len ≠ y.len then .error .assertion else .ok ⟨x.len, x.get, y.get, c⟩

/-- interpolation.py:43-45 `tree_flatten` -/
def NatSpline.treeFlatten (s : NatSpline) : TreeVal := .tup [.arr ⟨s.n, s.x⟩, .arr ⟨s.n, s.y⟩, .arr ⟨s.n, s.c⟩]

/-- interpolation.py:47-50 `tree_unflatten(cls, children)`, called with the list of positional arguments after `cls` -/
def NatSpline.treeUnflatten (args : List TreeVal) : Except TreeErr NatSpline :=
  match args with
  | [children] => match children with
    | .tup [.arr x, .arr y, .arr coefs] => NatSpline.initWith x y (some coefs.get)
    | .tup [.arr x, .arr y, .none] => NatSpline.initWith x y none
    | _ => .error .value
  | _ => .error .type

/-- JAX's use of a registered flatten function (`register_pytree_node_class` applied at interpolation.py:13): its result has to be a pair of children and static data -/
def jaxFlatten (result : TreeVal) : Except TreeErr (List TreeVal × TreeVal) :=
  match result with
  | .tup [children, aux] => match children with
    | .tup l => .ok (l, aux)
    | _ => .error .runtime
  | _ => .error .runtime

/-- JAX's use of a registered unflatten function: it is called as `unflatten(aux, children)` -/
def jaxUnflatten {β : Type} (unflatten : List TreeVal → Except TreeErr β) (aux : TreeVal) (children : List TreeVal) : Except TreeErr β := unflatten [aux, .tup children]

/-- a transformed function of one registered object, `jax.jit(f)(s)`: the object is taken apart, rebuilt from the traced leaves, and `f` is applied -/
def jaxJit {α β γ : Type} (flatten : α → TreeVal) (unflatten : List TreeVal → Except TreeErr β) (f : β → γ) (s : α) : Except TreeErr γ :=
  match jaxFlatten (flatten s) with
  | .ok (l, aux) => match jaxUnflatten unflatten aux l with
    | .ok t => .ok (f t)
    | .error e => .error e
  | .error e => .error e

end GW
end
