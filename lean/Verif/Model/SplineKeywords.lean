import Verif.Arr
import Verif.PyDict
import Verif.Model.Analysis

/-! # Model of the keyword arguments of the spline models

Which arguments reach the basis spline when a model of `gwinferno/models/bsplines/single.py` or `separable.py` is constructed.  Every constructor is a chain of Python calls: a class of
`separable.py` calls one or two classes of `single.py`, each of these calls `Base1DBSplineModel.__init__`, which calls the basis class of `gwinferno/interpolation.py`.

Simplifications: the result of a construction are the arguments with which the basis spline is made and the sample arrays (what is done with them is in `Model/SplineModels.lean`); a range is a
tuple of two values.  A keyword dictionary received as `**kwargs` is a new object in Python, so that `kwargs.pop` does not change the caller's dictionary or a default `{}`. -/

noncomputable section
open Classical
namespace GW

/-- the basis classes of interpolation.py (lines 72, 235, 320, 360, 410) -/
inductive BasisCls where
  | basisSpline | bSpline | logX | logY | logXLogY
  deriving DecidableEq

/-- the values passed as arguments -/
inductive KwVal where
  | cls (b : BasisCls)
  | int (n : ℕ)
  | num (x : ℝ)
  | flag (b : Bool)
  | arr (a : Arr ℝ)
  | tup (a b : KwVal)
  | pyNone

abbrev Kw := PyDict KwVal

/-- the keyword part of a call `f(..., k1=v1, **d1, **d2)`: the explicit keywords and the unpacked dictionaries; a name given twice is a `TypeError` -/
def mergeKw (parts : List Kw) : Except PyErr Kw :=
  if (PyDict.keys parts.flatten).Nodup then .ok parts.flatten else .error .typeError

/-- what a function body sees: its parameters, and the dictionary `**kwargs` -/
structure Bound where
  env : String → KwVal
  rest : Kw

/-- Python's binding of arguments to the parameters of a `def` (name and default); `varkw` says whether it ends with `**kwargs` -/
def bindArgs (params : List (String × Option KwVal)) (varkw : Bool) (pos : List KwVal) (kw : Kw) : Except PyErr Bound :=
  let names := params.map Prod.fst
  if params.length < pos.length then .error .typeError
  else if ∃ k ∈ kw.keys, k ∈ names.take pos.length then .error .typeError
  else if varkw = false ∧ ∃ k ∈ kw.keys, k ∉ names then .error .typeError
  else if ∃ p ∈ params.drop pos.length, p.2 = none ∧ p.1 ∉ kw.keys then .error .typeError
  else .ok ⟨fun k => ((PyDict.get? (names.zip pos ++ kw ++ params.map fun p => (p.1, p.2.getD .pyNone)) k)).getD .pyNone, kw.filter fun p => decide (p.1 ∉ names)⟩

/-- the arguments with which a basis spline is made, before any logarithm is taken -/
structure SplineArgs where
  cls : BasisCls
  nDf : KwVal
  knots : KwVal
  interiorKnots : KwVal
  xrange : KwVal
  k : KwVal
  normalize : KwVal

/-- interpolation.py:73-81 and 236-244: the parameters of `BasisSpline` and `BSpline`, which differ in the default of `normalize` -/
def plainParams (normalize : Bool) : List (String × Option KwVal) :=
  [("n_df", none), ("knots", some .pyNone), ("interior_knots", some .pyNone), ("xrange", some (.tup (.int 0) (.int 1))), ("k", some (.int 4)), ("normalize", some (.flag normalize))]

/-- interpolation.py:73-113 `BasisSpline.__init__` -/
def basisSplineInit (pos : List KwVal) (kw : Kw) : Except PyErr SplineArgs := do
  let b ← bindArgs (plainParams true) false pos kw
  .ok ⟨.basisSpline, b.env "n_df", b.env "knots", b.env "interior_knots", b.env "xrange", b.env "k", b.env "normalize"⟩

/-- interpolation.py:236-266 `BSpline.__init__`: hands everything on by name -/
def bSplineInit (pos : List KwVal) (kw : Kw) : Except PyErr SplineArgs := do
  let b ← bindArgs (plainParams false) false pos kw
  let r ← basisSplineInit [] (["n_df", "knots", "interior_knots", "xrange", "k", "normalize"].map fun n => (n, b.env n))
  .ok { r with cls := .bSpline }

/-- interpolation.py:321, 361, 411: the parameters of the three logarithmic classes before `**kwargs` -/
def logParams (xrange : KwVal) : List (String × Option KwVal) :=
  [("n_df", none), ("knots", some .pyNone), ("interior_knots", some .pyNone), ("xrange", some xrange), ("normalize", some (.flag true))]

/-- the call of the parent's constructor in the three logarithmic classes (interpolation.py:338, 375, 428): `super().__init__(n_df, knots=..., interior_knots=..., xrange=..., **kwargs)`, after
which `self.normalize` is set again (lines 340, 376, 430) -/
def logInit (cls : BasisCls) (xrange : KwVal) (parent : List KwVal → Kw → Except PyErr SplineArgs) (pos : List KwVal) (kw : Kw) : Except PyErr SplineArgs := do
  let b ← bindArgs (logParams xrange) true pos kw
  let kw' ← mergeKw [["knots", "interior_knots", "xrange"].map fun n => (n, b.env n), b.rest]
  let r ← parent [b.env "n_df"] kw'
  .ok { r with cls := cls, normalize := b.env "normalize" }

/-- interpolation.py:321-344 `LogXBSpline.__init__` -/
def logXSplineInit := logInit .logX (.tup (.num 0.01) (.int 1)) bSplineInit
/-- interpolation.py:361-379 `LogYBSpline.__init__` -/
def logYSplineInit := logInit .logY (.tup (.int 0) (.int 1)) bSplineInit
/-- interpolation.py:411-434 `LogXLogYBSpline.__init__`, whose parent is `LogYBSpline` -/
def logXLogYSplineInit := logInit .logXLogY (.tup (.num 0.1) (.int 1)) logYSplineInit

/-- calling a basis class -/
def BasisCls.call : BasisCls → List KwVal → Kw → Except PyErr SplineArgs
  | .basisSpline => basisSplineInit
  | .bSpline => bSplineInit
  | .logX => logXSplineInit
  | .logY => logYSplineInit
  | .logXLogY => logXLogYSplineInit

/-- a one-dimensional model: the arguments of its spline and its data -/
structure Model1 where
  spline : SplineArgs
  xx : KwVal
  xxInj : KwVal
  xmin : KwVal
  xmax : KwVal

/-- single.py:35-44: the parameters of `Base1DBSplineModel` before `**kwargs` -/
def baseParams : List (String × Option KwVal) :=
  [("n_splines", none), ("xx", none), ("xx_inj", none), ("xrange", some (.tup (.num 0) (.num 1))), ("degree", some (.int 3)), ("basis", some (.cls .bSpline))]

/-- single.py:35-58 `Base1DBSplineModel.__init__`.  A range that is not a pair, a degree that is not a number and a basis that is not a class are `TypeError`s. -/
def baseInit (pos : List KwVal) (kw : Kw) : Except PyErr Model1 := do
  let b ← bindArgs baseParams true pos kw
  match b.env "xrange", b.env "degree", b.env "basis" with
  | .tup xmin xmax, .int degree, .cls basis => do
    let kw' ← mergeKw [[("xrange", .tup xmin xmax)], [("k", .int (degree + 1))], b.rest]
    let s ← basis.call [b.env "n_splines"] kw'
    .ok ⟨s, b.env "xx", b.env "xx_inj", xmin, xmax⟩
  | _, _, _ => .error .typeError

/-- a class of single.py: the names of its three data parameters, its further parameters, its default basis and its default range -/
structure Single where
  data : List String
  extra : Kw
  basis : BasisCls
  range : (String → KwVal) → KwVal

/-- the parameters of such a class before `**kwargs` -/
def Single.params (S : Single) : List (String × Option KwVal) :=
  S.data.map (fun n => (n, none)) ++ S.extra.map (fun p => (p.1, some p.2)) ++ [("basis", some (.cls S.basis))]

/-- the constructor of such a class: `def __init__(self, <data>, <extra>, basis=<basis>, **kwargs)`, `xrange = kwargs.pop("xrange", <range>)`,
`super().__init__(<data>, basis=basis, xrange=xrange, **kwargs)` (single.py:146-162 and the other classes) -/
def Single.init (S : Single) (pos : List KwVal) (kw : Kw) : Except PyErr Model1 := do
  let b ← bindArgs S.params true pos kw
  let xrange := (PyDict.get? b.rest "xrange").getD (S.range b.env)
  let kw' ← mergeKw [[("basis", b.env "basis"), ("xrange", xrange)], b.rest.filter fun p => decide (p.1 ≠ "xrange")]
  baseInit (S.data.map b.env) kw'

/-- single.py:146-162 `BSplineSpinMagnitude` -/
def spinMagnitudeCls : Single := ⟨["n_splines", "a", "a_inj"], [], .logY, fun _ => .tup (.num 0) (.num 1)⟩
/-- single.py:180-196 `BSplineSpinTilt` -/
def spinTiltCls : Single := ⟨["n_splines", "ct", "ct_inj"], [], .logY, fun _ => .tup (.num (-1)) (.num 1)⟩
/-- single.py:214-230 `BSplineChiEffective` -/
def chiEffectiveCls : Single := ⟨["n_splines", "chieff", "chieff_inj"], [], .bSpline, fun _ => .tup (.num (-1)) (.num 1)⟩
/-- single.py:302-318 `BSplineChiPrecess` -/
def chiPrecessCls : Single := ⟨["n_splines", "chip", "chip_inj"], [], .bSpline, fun _ => .tup (.num 0) (.num 1)⟩
/-- single.py:338-355 `BSplineRatio` -/
def ratioCls : Single := ⟨["n_splines", "q", "q_inj"], [("qmin", .int 0)], .logY, fun e => .tup (e "qmin") (.int 1)⟩
/-- single.py:377-395 `BSplineMass` -/
def massCls : Single := ⟨["n_splines", "m", "m_inj"], [("mmin", .int 2), ("mmax", .int 100)], .logXLogY, fun e => .tup (e "mmin") (e "mmax")⟩

/-- a call of a class of single.py with its data by keyword, explicit keywords `own`, and unpacked dictionaries, as made in separable.py -/
def Single.callKw (S : Single) (n x xInj : KwVal) (own : Kw) (dicts : List Kw) : Except PyErr Model1 := do
  let kw ← mergeKw ((S.data.zip [n, x, xInj] ++ own) :: dicts)
  S.init [] kw

/-- the same with the data given by position -/
def Single.callPos (S : Single) (n x xInj : KwVal) (own : Kw) (dicts : List Kw) : Except PyErr Model1 := do
  let kw ← mergeKw (own :: dicts)
  S.init [n, x, xInj] kw

/-- separable.py:38-58 `BSplineIIDSpinMagnitudes.__init__` -/
def iidSpinMagnitudesKw (n a1 a2 a1i a2i : KwVal) (kwargs : Kw) : Except PyErr (Model1 × Model1) := do
  let p ← spinMagnitudeCls.callKw n a1 a1i [] [kwargs]
  let s ← spinMagnitudeCls.callKw n a2 a2i [] [kwargs]
  .ok (p, s)
/-- separable.py:107-132 `BSplineIndependentSpinMagnitudes.__init__` -/
def independentSpinMagnitudesKw (n1 n2 a1 a2 a1i a2i : KwVal) (kwargs1 kwargs2 kwargs : Kw) : Except PyErr (Model1 × Model1) := do
  let p ← spinMagnitudeCls.callKw n1 a1 a1i [] [kwargs1, kwargs]
  let s ← spinMagnitudeCls.callKw n2 a2 a2i [] [kwargs2, kwargs]
  .ok (p, s)
/-- separable.py:177-197 `BSplineIIDSpinTilts.__init__` -/
def iidSpinTiltsKw (n ct1 ct2 ct1i ct2i : KwVal) (kwargs : Kw) : Except PyErr (Model1 × Model1) := do
  let p ← spinTiltCls.callKw n ct1 ct1i [] [kwargs]
  let s ← spinTiltCls.callKw n ct2 ct2i [] [kwargs]
  .ok (p, s)
/-- separable.py:246-271 `BSplineIndependentSpinTilts.__init__` -/
def independentSpinTiltsKw (n1 n2 ct1 ct2 ct1i ct2i : KwVal) (kwargs1 kwargs2 kwargs : Kw) : Except PyErr (Model1 × Model1) := do
  let p ← spinTiltCls.callKw n1 ct1 ct1i [] [kwargs1, kwargs]
  let s ← spinTiltCls.callKw n2 ct2 ct2i [] [kwargs2, kwargs]
  .ok (p, s)
/-- separable.py:324-340 `BSplinePrimaryPowerlawRatio.__init__` -/
def primaryPowerlawRatioKw (n m1 m1i mmin mmax : KwVal) (kwargs : Kw) : Except PyErr Model1 :=
  massCls.callPos n m1 m1i [("mmin", mmin), ("mmax", mmax)] [kwargs]
/-- separable.py:396-408 `PLPeakPrimaryBSplineRatio.__init__` -/
def plPeakPrimaryRatioKw (n q qi : KwVal) (kwargs : Kw) : Except PyErr Model1 := ratioCls.callPos n q qi [] [kwargs]
/-- separable.py:480-511 `BSplinePrimaryBSplineRatio.__init__`; the limits are numbers -/
def primaryRatioKw (nm nq m1 m1i q qi : KwVal) (mmax m1min m2min : ℝ) (kwargsM kwargsQ kwargs : Kw) : Except PyErr (Model1 × Model1) := do
  let p ← massCls.callPos nm m1 m1i [("mmin", .num m1min), ("mmax", .num mmax)] [kwargsM, kwargs]
  let qmin ← if mmax = 0 then .error .zeroDivisionError else .ok (m2min / mmax)
  let r ← ratioCls.callPos nq q qi [("qmin", .num qmin)] [kwargsQ, kwargs]
  .ok (p, r)
/-- separable.py:558-585 `BSplineIIDComponentMasses.__init__` -/
def iidComponentMassesKw (n m1 m2 m1i m2i mmin mmax : KwVal) (kwargs : Kw) : Except PyErr (Model1 × Model1) := do
  let p ← massCls.callKw n m1 m1i [("mmin", mmin), ("mmax", mmax)] [kwargs]
  let s ← massCls.callKw n m2 m2i [("mmin", mmin), ("mmax", mmax)] [kwargs]
  .ok (p, s)
/-- separable.py:645-679 `BSplineIndependentComponentMasses.__init__` -/
def independentComponentMassesKw (n1 n2 m1 m2 m1i m2i mmin1 mmax1 mmin2 mmax2 : KwVal) (kwargs1 kwargs2 kwargs : Kw) : Except PyErr (Model1 × Model1) := do
  let p ← massCls.callKw n1 m1 m1i [("mmin", mmin1), ("mmax", mmax1)] [kwargs1, kwargs]
  let s ← massCls.callKw n2 m2 m2i [("mmin", mmin2), ("mmax", mmax2)] [kwargs2, kwargs]
  .ok (p, s)
/-- separable.py:731-757 `BSplineEffectiveSpinDims.__init__` -/
def effectiveSpinDimsKw (ne np e p ei pi : KwVal) (kwargsE kwargsP kwargs : Kw) : Except PyErr (Model1 × Model1) := do
  let a ← chiEffectiveCls.callPos ne e ei [] [kwargsE, kwargs]
  let b ← chiPrecessCls.callPos np p pi [] [kwargsP, kwargs]
  .ok (a, b)

end GW
end
