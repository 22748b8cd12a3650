import Verif.Num
import Mathlib.Data.Finset.Fold
import Mathlib.Data.Fintype.Basic
import Mathlib.Algebra.BigOperators.Fin

/-!
# Model of `gwinferno/pipeline/analysis.py`: Monte Carlo estimators and `hierarchical_likelihood`

Arrays are functions on `Fin n`; a 2-D array of shape `(E, N)` is a function `Fin E → Fin N → F`.
-/

open Finset
noncomputable section
open Classical
namespace GW
open F

theorem F_max_comm (a b : F) : F.max a b = F.max b a := by
  rcases a with x | _ | _ | _ <;> rcases b with y | _ | _ | _ <;> simp [F.max]
  by_cases h : x ≤ y <;> by_cases h' : y ≤ x <;> simp [h, h']
  · exact le_antisymm h' h
  · exact absurd (le_total x y) (by simp [h, h'])

theorem F_max_assoc (a b c : F) : F.max (F.max a b) c = F.max a (F.max b c) := by
  rcases a with x | _ | _ | _ <;> rcases b with y | _ | _ | _ <;> rcases c with z | _ | _ | _ <;> simp [F.max] <;>
    (try split_ifs) <;> simp_all <;> linarith

instance : Std.Commutative F.max := ⟨F_max_comm⟩
instance : Std.Associative F.max := ⟨F_max_assoc⟩

theorem F_min_comm (a b : F) : F.min a b = F.min b a := by
  rcases a with x | _ | _ | _ <;> rcases b with y | _ | _ | _ <;> simp [F.min]
  by_cases h : x ≤ y <;> by_cases h' : y ≤ x <;> simp [h, h']
  · exact le_antisymm h h'
  · exact absurd (le_total x y) (by simp [h, h'])

theorem F_min_assoc (a b c : F) : F.min (F.min a b) c = F.min a (F.min b c) := by
  rcases a with x | _ | _ | _ <;> rcases b with y | _ | _ | _ <;> rcases c with z | _ | _ | _ <;> simp [F.min] <;>
    (try split_ifs) <;> simp_all <;> linarith

instance : Std.Commutative F.min := ⟨F_min_comm⟩
instance : Std.Associative F.min := ⟨F_min_assoc⟩

/-- `jnp.max` of an array (nan propagates); JAX raises on an empty array, here the value is `-inf`. -/
def maxF {n : ℕ} (a : Fin n → F) : F := univ.fold F.max ninf a
/-- `jnp.min` of an array (nan propagates); JAX raises on an empty array, here the value is `+inf`. -/
def minF {n : ℕ} (a : Fin n → F) : F := univ.fold F.min pinf a

/-- `jax.scipy.special.logsumexp(a)`: shift by the maximum when it is finite, else by 0. -/
def logsumexp {n : ℕ} (a : Fin n → F) : F :=
  let amax := maxF a
  let shift : F := if isfinite amax then amax else 0
  log (∑ i, exp (a i - shift)) + shift

/-- analysis.py:76-87 for one row (the operations act on `axis=1`): log Bayes factor, log n_eff, variance. -/
def perEventRow {N : ℕ} (w : Fin N → F) (log : Bool) : F × F × F :=
  let r : F × F :=
    if log then
      let logBF := logsumexp w
      let logn_eff := 2 * logBF - logsumexp (fun i => 2 * w i)
      (logBF - F.log (fin N), logn_eff)
    else
      let BF := ∑ i, w i
      let n_eff := sq BF / ∑ i, sq (w i)
      let BF := BF / fin N
      (F.log BF, F.log n_eff)
  (r.1, r.2, 1 / exp r.2 - 1 / fin N)

/-- analysis.py:50-88 `per_event_log_bayes_factors(weights, log)`. -/
def per_event_log_bayes_factors {E N : ℕ} (weights : Fin E → Fin N → F) (log : Bool) :
    (Fin E → F) × (Fin E → F) × (Fin E → F) :=
  (fun e => (perEventRow (weights e) log).1, fun e => (perEventRow (weights e) log).2.1,
   fun e => (perEventRow (weights e) log).2.2)

/-- analysis.py:91-136 `detection_efficiency(weights, Ninj, log)`: log mu, log n_eff, variance. -/
def detection_efficiency {M : ℕ} (weights : Fin M → F) (Ninj : ℕ) (log : Bool) : F × F × F :=
  let r : F × F :=
    if log then
      let logmu := logsumexp weights - F.log (fin Ninj)
      let mu := exp logmu
      let var := (∑ i, sq (exp (weights i))) / fin ((Ninj : ℝ) ^ 2) - sq mu / fin Ninj
      (logmu, 2 * logmu - F.log var)
    else
      let mu := (∑ i, weights i) / fin Ninj
      let var := (∑ i, sq (weights i)) / fin ((Ninj : ℝ) ^ 2) - sq mu / fin Ninj
      (F.log mu, 2 * F.log mu - F.log var)
  (r.1, r.2, 1 / exp r.2 - 1 / fin Ninj)

/-! ### numpyro effects -/

/-- One numpyro statement executed by the model function, in order. -/
inductive Site where
  /-- `numpyro.sample(name, …)` -/
  | sample (name : String)
  /-- `numpyro.deterministic(name, v)`; arrays are flattened -/
  | det (name : String) (v : List F)
  /-- `numpyro.factor(name, v)` -/
  | factor (name : String) (v : F)

/-- Python exceptions. -/
inductive PyErr where
  | valueError | typeError | keyError (key : String) | attributeError (name : String) | indexError
  | unboundLocalError (name : String) | importError (name : String) | assertionError | recursionError
  | zeroDivisionError | exception
  deriving DecidableEq

/-- The keyword flags of `hierarchical_likelihood` (analysis.py:139-163) with their defaults. -/
structure Flags where
  reconstruct_rate : Bool := true
  marginalize_selection : Bool := false
  min_neff_cut : Bool := true
  max_variance_cut : Bool := false
  log : Bool := false

/-- `pe_weights`: one array, or with `categorical=True` a pair of arrays and the sampled labels `Qs`
(analysis.py:246-254; then `Nobs` is the number of rows). -/
inductive PEWeights (E N : ℕ) where
  | single (w : Fin E → Fin N → F)
  | categorical (w0 w1 : Fin E → Fin N → F) (Qs : Fin E → ℕ)

/-- analysis.py:246-257: the sites and the array passed to the estimator. -/
def PEWeights.sites {E N : ℕ} : PEWeights E N → List Site
  | .single _ => []
  | .categorical _ _ _ => [.sample "Qs"]
/-- analysis.py:253: `jnp.where(Qs[i] == 0, pe_weights[0][i], pe_weights[1][i])`. -/
def PEWeights.array {E N : ℕ} : PEWeights E N → Fin E → Fin N → F
  | .single w => w
  | .categorical w0 w1 Qs => fun i j => if Qs i = 0 then w0 i j else w1 i j

/-! ### posterior predictive draws (analysis.py:321-355) -/

/-- `jax.random.choice(key, n, p=p)`: `searchsorted(cumsum(p), cumsum(p)[-1] * (1 - uniform))`, the number of entries of
the (sorted) cumulative sums that are smaller.  `u` is the uniform draw in `[0, 1)` made from the key. -/
def jaxChoice {n : ℕ} (u : ℝ) (p : Fin n → F) : ℕ :=
  let cuml : Fin n → F := fun i => ∑ j ∈ univ.filter (fun j => j ≤ i), p j
  let r := (∑ j, p j) * (1 - fin u)
  (univ.filter fun i => lt (cuml i) r).card

/-- JAX array indexing with a non-negative integer: out-of-range indices are clamped to the last entry. -/
def jaxGet {α : Type} {n : ℕ} (h : 0 < n) (a : Fin n → α) (i : ℕ) : α := a ⟨min i (n - 1), by omega⟩

/-- A JAX random key: `random.PRNGKey(seed)`, or one of the two keys `random.split(key)` returns (analysis.py:340-341).
Keys built in the same way are equal. -/
inductive Key
  | seed (n : ℕ)
  | split1 (k : Key)
  | split2 (k : Key)

/-- The arguments used only by the posterior predictive check (analysis.py:156-161, 147-148), all present. -/
structure PPC (E N M : ℕ) where
  param_names : List String
  pedata : String → Option (Fin E → Fin N → F)
  injdata : String → Option (Fin M → F)
  m2min : F := 3
  m1min : F := 5
  mmax : F := 100
  /-- `indv_weights` when `marginal_qs` -/
  indv : Option (List (Fin E → Fin N → F)) := none
  /-- the uniform number the generator makes from a key; a fixed function, JAX's generators having no hidden state -/
  unif : Key → ℝ

/-- analysis.py:326-338 the mass condition under which a weight is set to 0. -/
def massCut (m1 q m1min mmax m2min : F) : Prop := lt m1 m1min ∨ gt m1 mmax ∨ lt (m1 * q) m2min

/-- dictionary access `d[k]` -/
def getKey {α : Type} (d : String → Option α) (k : String) : Except PyErr α :=
  match d k with | some v => .ok v | none => .error (.keyError k)

/-- analysis.py:323-331 the masked PE weights. -/
def ppcPeWeights {E N : ℕ} (log : Bool) (w : Fin E → Fin N → F) (m1 q : Fin E → Fin N → F) (m1min mmax m2min : F) :
    Fin E → Fin N → F := fun e j =>
  if massCut (m1 e j) (q e j) m1min mmax m2min then 0 else if log then exp (w e j) else w e j
/-- analysis.py:325, 332-338 the masked injection weights. -/
def ppcInjWeights {M : ℕ} (log : Bool) (w : Fin M → F) (m1 q : Fin M → F) (m1min mmax m2min : F) : Fin M → F := fun j =>
  if massCut (m1 j) (q j) m1min mmax m2min then 0 else if log then exp (w j) else w j

/-- analysis.py:342-346 and 352: the chosen index, from normalised weights. -/
def ppcDraw {n : ℕ} (u : ℝ) (w : Fin n → F) : ℕ := jaxChoice u (fun j => w j / ∑ k, w k)

/-- analysis.py:353-355: one pass of the loop over `param_names`. -/
def ppcNameStep {E N M : ℕ} (p : PPC E N M) (hE : 0 < E) (hN : 0 < N) (hM : 0 < M) (ev obs pred : ℕ)
    (acc : List Site × Except PyErr Unit) (name : String) : List Site × Except PyErr Unit :=
  match acc.2 with
  | .error e => (acc.1, .error e)
  | .ok _ => match getKey p.pedata name with
    | .error e => (acc.1, .error e)
    | .ok d =>
      let t := acc.1 ++ [.det s!"{name}_obs_event_{ev}" [jaxGet hN (jaxGet hE d ev) obs]]
      match getKey p.injdata name with
      | .error e => (t, .error e)
      | .ok d' => (t ++ [.det s!"{name}_pred_event_{ev}" [jaxGet hM d' pred]], .ok ())

/-- analysis.py:348-350: the subpopulation fractions. -/
def ppcCats {E N M : ℕ} (p : PPC E N M) (hE : 0 < E) (hN : 0 < N) (pw : Fin E → Fin N → F) (ev obs : ℕ) : List Site :=
  match p.indv with
  | none => []
  | some l => l.mapIdx fun i w => Site.det s!"cat_frac_subpop_{i + 1}_event_{ev}"
      [jaxGet hN (jaxGet hE w ev) obs / jaxGet hN (jaxGet hE pw ev) obs]

/-- analysis.py:339-355: the sites of event `ev`. -/
def ppcEvent {E N M : ℕ} (p : PPC E N M) (hE : 0 < E) (hN : 0 < N) (hM : 0 < M) (pw : Fin E → Fin N → F) (iw : Fin M → F)
    (ev : ℕ) : List Site × Except PyErr Unit :=
  let k := Key.seed ev
  let obs := ppcDraw (p.unif k.split1) (jaxGet hE pw ev)
  let pred := ppcDraw (p.unif k.split2) iw
  p.param_names.foldl (ppcNameStep p hE hN hM ev obs pred) (ppcCats p hE hN pw ev obs, .ok ())

/-- analysis.py:339: one pass of the loop over events. -/
def ppcEventStep {E N M : ℕ} (p : PPC E N M) (hE : 0 < E) (hN : 0 < N) (hM : 0 < M) (pw : Fin E → Fin N → F)
    (iw : Fin M → F) (acc : List Site × Except PyErr Unit) (ev : ℕ) : List Site × Except PyErr Unit :=
  match acc.2 with
  | .error e => (acc.1, .error e)
  | .ok _ => let r := ppcEvent p hE hN hM pw iw ev; (acc.1 ++ r.1, r.2)

/-- analysis.py:321-355.  Empty arrays (on which JAX raises) are reported as `valueError`. -/
def ppcRun {E N M : ℕ} (log : Bool) (pe : Fin E → Fin N → F) (inj : Fin M → F) (Nobs : ℕ) (p : PPC E N M) :
    List Site × Except PyErr Unit :=
  match getKey p.pedata "mass_1" with
  | .error e => ([], .error e)
  | .ok m1 => match getKey p.pedata "mass_ratio" with
    | .error e => ([], .error e)
    | .ok q => match getKey p.injdata "mass_1" with
      | .error e => ([], .error e)
      | .ok im1 => match getKey p.injdata "mass_ratio" with
        | .error e => ([], .error e)
        | .ok iq =>
          let pw := ppcPeWeights log pe m1 q p.m1min p.mmax p.m2min
          let iw := ppcInjWeights log inj im1 iq p.m1min p.mmax p.m2min
          if h : 0 < E ∧ 0 < N ∧ 0 < M then
            (List.range Nobs).foldl (ppcEventStep p h.1 h.2.1 h.2.2 pw iw) ([], .ok ())
          else ([], .error .valueError)

/-- analysis.py:321-355 with `categorical=True`: `pe_weights` is then a stack of two arrays (shape `(2, E, N)`), so
`pe_weights[ev, :]` is two-dimensional and `random.choice` raises `ValueError` in the first pass of the loop.
Simplification: a *tuple* of two arrays fails earlier, with `TypeError`. -/
def ppcRunCategorical {E N M : ℕ} (Nobs : ℕ) (p : PPC E N M) : List Site × Except PyErr Unit :=
  match getKey p.pedata "mass_1" with
  | .error e => ([], .error e)
  | .ok _ => match getKey p.pedata "mass_ratio" with
    | .error e => ([], .error e)
    | .ok _ => match getKey p.injdata "mass_1" with
      | .error e => ([], .error e)
      | .ok _ => match getKey p.injdata "mass_ratio" with
        | .error e => ([], .error e)
        | .ok _ => if Nobs = 0 then ([], .ok ()) else ([], .error .valueError)

/-- analysis.py:321-355 for both kinds of `pe_weights` -/
def ppcOf {E N M : ℕ} (log : Bool) (pe : PEWeights E N) (inj : Fin M → F) (Nobs : ℕ) (p : PPC E N M) :
    List Site × Except PyErr Unit :=
  match pe with
  | .single w => ppcRun log w inj Nobs p
  | .categorical _ _ _ => ppcRunCategorical Nobs p

/-! ### hierarchical_likelihood -/

/-- analysis.py:266-269: the rate sites; `surveyed_hypervolume=None` cannot be divided. -/
def ratePart (fl : Flags) (hv : Option F) (Tobs unscaled log_det_eff : F) : Except PyErr (List Site × Option F) :=
  if fl.reconstruct_rate then
    match hv with
    | none => .error .typeError
    | some hv =>
      let total_vt := hv / fin 1e9 * Tobs
      let rate := unscaled / exp log_det_eff / total_vt
      .ok ([.det "surveyed_hypervolume" [total_vt], .sample "unscaled_rate", .det "rate" [rate]], some rate)
  else .ok ([], none)

/-- analysis.py:270-281: the selection factor. -/
def selectionFactor (fl : Flags) (Nobs : ℕ) (log_det_eff logn_eff_inj : F) : F :=
  let log_det_eff := if fl.marginalize_selection then
      log_det_eff - fin (3 + Nobs) / (2 * exp logn_eff_inj) else log_det_eff
  let log_det_eff := if fl.min_neff_cut then
      (if ge logn_eff_inj (log (fin (4 * Nobs))) then log_det_eff else pinf) else log_det_eff
  if isinf log_det_eff then nanToNum ninf else -fin Nobs * log_det_eff

/-- analysis.py:283-291: `log_l` with NaN replaced. -/
def guardedLogL (sel sumlogBFs : F) : F :=
  let log_l := sel + sumlogBFs
  if isnan log_l then nanToNum ninf else nanToNum log_l

/-- analysis.py:294-303: the cut on the per-event effective sample sizes. -/
def neffCut {E : ℕ} (fl : Flags) (Nobs : ℕ) (logn_effs : Fin E → F) (log_l : F) : F :=
  if fl.min_neff_cut then
    let min_n_effs := exp (minF fun e => nanToNum (logn_effs e))
    if le min_n_effs (fin Nobs) then nanToNum ninf else log_l
  else log_l

/-- analysis.py:309-317: the cut on the total variance. -/
def varianceCut (fl : Flags) (variance log_l : F) : F :=
  if fl.max_variance_cut then (if le variance 1 then log_l else nanToNum ninf) else log_l

/-- analysis.py:139-356 `hierarchical_likelihood`: the executed numpyro statements in order, and the returned rate or
the exception.  `unscaled` is the value drawn for the site "unscaled_rate". -/
def hierarchical_likelihood {E N M : ℕ} (fl : Flags) (pe : PEWeights E N) (inj : Fin M → F) (total_inj Nobs : ℕ)
    (Tobs : F) (hv : Option F) (unscaled : F) (ppc : Option (PPC E N M) := none) :
    List Site × Except PyErr (Option F) :=
  if fl.max_variance_cut ∧ (fl.marginalize_selection ∨ fl.min_neff_cut) then ([], .error .valueError)
  else
    let b := per_event_log_bayes_factors pe.array fl.log
    let logBFs := b.1
    let logn_effs := b.2.1
    let variances := b.2.2
    let d := detection_efficiency inj total_inj fl.log
    let log_det_eff := d.1
    let logn_eff_inj := d.2.1
    let variance := d.2.2
    let t1 := pe.sites ++
      [.det "log_nEff_inj" [logn_eff_inj], .det "log_nEffs" (List.ofFn logn_effs), .det "logBFs" (List.ofFn logBFs),
       .det "detection_efficiency" [exp log_det_eff], .det "variance_log_BFs" (List.ofFn variances),
       .det "variance_log_detection_efficiency" [variance]]
    match ratePart fl hv Tobs unscaled log_det_eff with
    | .error e => (t1, .error e)
    | .ok rp =>
      let sel := selectionFactor fl Nobs log_det_eff logn_eff_inj
      let sumlogBFs := ∑ e, logBFs e
      let log_l := guardedLogL sel sumlogBFs
      let log_l2 := neffCut fl Nobs logn_effs log_l
      let total_var := fin ((Nobs : ℝ) ^ 2) * variance + ∑ e, variances e
      let log_l3 := varianceCut fl total_var log_l2
      let t2 := t1 ++ rp.1 ++ [.det "selection_factor" [sel], .det "sum_logBFs" [sumlogBFs], .det "log_l" [log_l]]
        ++ (if fl.min_neff_cut then [Site.det "neff_less_Nobs" [log_l2]] else [])
        ++ [.det "variance_log_likelihood" [total_var]]
        ++ (if fl.max_variance_cut then [Site.det "variance_less_1" [log_l3]] else [])
        ++ [.factor "log_likelihood" log_l3]
      match ppc with
      | none => (t2, .ok rp.2)
      | some p =>
        let r := ppcOf fl.log pe inj Nobs p
        (t2 ++ r.1, r.2.map fun _ => rp.2)

end GW
end
