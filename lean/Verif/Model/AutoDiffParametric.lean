import Verif.Model.AutoDiffSplines
import Verif.Model.Scripts

/-!
# Model of the gradients of the parametric models, and of the power-law-plus-peak example

The functions of `gwinferno/distributions.py` and `gwinferno/models/parametric/parametric.py` that `Model/AutoDiffDensities.lean` leaves out, as
differentiable programs (reverse mode).
-/

open Finset
noncomputable section
open Classical
namespace GW
open F

variable {α : Type}

/-- distributions.py:16-21 `smooth(dx, x, xmin)`; `(func + 1) ** (-1)` has the rule `ct * (-1 * (func + 1) ** (-2))`, that of a power with a constant
exponent. -/
def smoothD (dx x xmin : Diff α Unit) : Diff α Unit :=
  let func := (Diff.bin .add (.bin .div dx (.bin .sub x xmin)) (.bin .div dx (.bin .sub (.bin .sub x xmin) dx))).andThen .exp
  let s1 := Diff.sel (fun e => lt (x.f e ()) (xmin.f e ())) (.const 0) (.const 1)
  .sel (fun e => lt (x.f e ()) (xmin.f e () + dx.f e ()) ∨ ge (x.f e ()) (xmin.f e ())) (.bin .pow (.bin .add func (.const 1)) (.const (-1))) s1

/-- distributions.py:24-37 `logistic_function(x, L, k, x0)`. -/
def logisticD (x L k x0 : Diff α Unit) : Diff α Unit :=
  .bin .div L (.bin .add (.const 1) ((Diff.bin .mul (k.andThen .neg) (.bin .sub x x0)).andThen .exp))

/-- distributions.py:40-53 `logistic_unit(x, x0, sgn, sc)`. -/
def logisticUnitD (x x0 sgn sc : Diff α Unit) : Diff α Unit := logisticD x (.const 1) (.bin .mul (.bin .mul (.const (-1)) sgn) sc) x0

/-- distributions.py:56-72 `log_logistic_unit(x, x0, sgn, sc)`. -/
def logLogisticUnitD (x x0 sgn sc : Diff α Unit) : Diff α Unit :=
  .sel (fun e => lt ((x.f e () - x0.f e ()) * sgn.f e () * sc.f e ()) 0)
    ((logisticUnitD x x0 sgn sc).andThen .log)
    (.bin .add (.bin .mul (.bin .mul (sgn.andThen .neg) sc) (.bin .sub x x0)) ((logisticUnitD x x0 (sgn.andThen .neg) sc).andThen .log))

/-- distributions.py:75-97 `powerlaw_logit_pdf`. -/
def powerlawLogitD (xx alpha : Diff α Unit) (low high : Option (Diff α Unit)) (low_fall_off high_fall_off : Diff α Unit) : Diff α Unit :=
  let prob := Diff.bin .pow xx alpha
  let prob := match low with
    | none => prob
    | some low => .bin .mul prob (logisticUnitD xx low (.const (-1)) low_fall_off)
  match high with
    | none => prob
    | some high => .bin .mul prob (logisticUnitD xx high (.const 1) high_fall_off)

/-- parametric.py:33-36 `powerlaw_primary_ratio_falloff_pdf`. -/
def powerlawFalloffD (m1 q alpha beta mmin mmax fall_off : Diff α Unit) : Diff α Unit :=
  .bin .mul (powerlawD q beta (.bin .div mmin m1) (.const 1)) (powerlawLogitD m1 alpha (some mmin) (some mmax) fall_off (.const 4))

/-- parametric.py:39-53 `plpeak_primary_ratio_pdf` with a `delta`. -/
def plpeakSmoothD (m1 q alpha beta mmin mmax mpp sigpp lam delta : Diff α Unit) : Diff α Unit :=
  let p_q := powerlawD q beta (.bin .div mmin m1) (.const 1)
  let p_m1 := Diff.bin .add (.bin .mul (.bin .mul (.bin .sub (.const 1) lam) (powerlawD m1 alpha mmin mmax)) (smoothD delta m1 mmin))
    (.bin .mul lam (truncnormD m1 mpp sigpp mmin mmax))
  .bin .mul (.bin .mul p_q (smoothD delta (.bin .mul q m1) mmin)) p_m1

/-- parametric.py:67-68 `iid_spin_magnitude`. -/
def iidMagnitudeD (a1 a2 alpha beta amax : Diff α Unit) : Diff α Unit := .bin .mul (betaD a1 alpha beta amax) (betaD a2 alpha beta amax)

/-- parametric.py:71-81 `independent_spin_magnitude_beta_dist`. -/
def independentMagnitudeD (a1 a2 alpha1 beta1 alpha2 beta2 amax1 amax2 : Diff α Unit) : Diff α Unit :=
  .bin .mul (betaD a1 alpha1 beta1 amax1) (betaD a2 alpha2 beta2 amax2)

/-- parametric.py:84-86 `mixture_isoalign_spin_tilt`. -/
def isoalignD (ct xi sigma : Diff α Unit) : Diff α Unit :=
  let cut := Diff.sel (fun e => gt (ct.f e ()) 1 ∨ lt (ct.f e ()) (-1)) (.const 0) (.const 1)
  .bin .add (.bin .div (.bin .mul cut (.bin .sub (.const 1) xi)) (.const 2)) (.bin .mul xi (truncnormD ct (.const 1) sigma (.const (-1)) (.const 1)))

/-- parametric.py:89-90 `iid_spin_tilt`. -/
def iidTiltD (ct1 ct2 xi sigma : Diff α Unit) : Diff α Unit := .bin .mul (isoalignD ct1 xi sigma) (isoalignD ct2 xi sigma)

/-- parametric.py:93-94 `independent_spin_tilt`. -/
def independentTiltD (ct1 ct2 xi1 xi2 sigma1 sigma2 : Diff α Unit) : Diff α Unit := .bin .mul (isoalignD ct1 xi1 sigma1) (isoalignD ct2 xi2 sigma2)

/-- parametric.py:97-102 `default_spin_tilt`. -/
def defaultTiltD (ct1 ct2 xi sigma : Diff α Unit) : Diff α Unit :=
  let iso (ct : Diff α Unit) := Diff.sel (fun e => gt (ct.f e ()) 1 ∨ lt (ct.f e ()) (-1)) (.const 0) (.const (fin (1/2)))
  let ali (ct : Diff α Unit) := truncnormD ct (.const 1) sigma (.const (-1)) (.const 1)
  .bin .add (.bin .mul (.bin .mul (.bin .sub (.const 1) xi) (iso ct1)) (iso ct2)) (.bin .mul (.bin .mul xi (ali ct1)) (ali ct2))

/-- parametric.py:126-127 `prob`. -/
def ZModel.probD (z dV : ℝ) (lamb : Diff α Unit) : Diff α Unit :=
  .bin .mul (.const (fin dV)) (.bin .pow (.const (fin (1 + z))) (.bin .sub lamb (.const 1)))

/-- parametric.py:123-124 `normalization`. -/
def ZModel.normalizationD (m : ZModel) (lamb : Diff α Unit) : Diff α Unit :=
  trapzD m.zs.len (fun i => ZModel.probD (m.zs.get i) (m.dV (m.zs.get i)) lamb) fun i => fin (m.zs.get i)

/-- parametric.py:138-145 `__call__(z, lamb)`, entry `i` of the array `z`. -/
def ZModel.callD (m : ZModel) (twoD : Bool) (z : Arr ℝ) (lamb : Diff α Unit) (i : ℕ) : Diff α Unit :=
  .sel (fun _ => z.get i ≤ m.zmax) (.bin .div (ZModel.probD (z.get i) (m.dVdz twoD i) lamb) (m.normalizationD lamb)) (.const 0)

/-- parametric.py:129-136 `log_prob(z, lamb)`, entry `i`. -/
def ZModel.logProbD (m : ZModel) (twoD : Bool) (z : Arr ℝ) (lamb : Diff α Unit) (i : ℕ) : Diff α Unit :=
  .sel (fun _ => z.get i ≤ m.zmax)
    (.bin .sub (.bin .add (.const (log (fin (m.dVdz twoD i)))) (.bin .mul (.bin .sub lamb (.const 1)) (.const (log (1 + fin (z.get i))))))
      ((m.normalizationD lamb).andThen .log))
    (.const (nanToNum ninf))

/-- simple_powerlaw_peak_example.py:52-77: the sampled hyper-parameters of the example, numbered in the order of their sites (`plpeakPriors`) -/
def plpeakValue (θ : Fin 14 → ℝ) : String → ℝ
  | "beta" => θ 0
  | "alpha" => θ 1
  | "mu_peak" => θ 2
  | "sig_peak" => θ 3
  | "lambda_m" => θ 4
  | "mu_a1" => θ 5
  | "var_a1" => θ 6
  | "mu_a2" => θ 7
  | "var_a2" => θ 8
  | "lambda_ct1" => θ 9
  | "lambda_ct2" => θ 10
  | "sig_ct1" => θ 11
  | "sig_ct2" => θ 12
  | "lamb" => θ 13
  | _ => 0

/-- simple_powerlaw_peak_example.py:64-67: `mu * var` and `(1 - mu) * var` -/
def plpeakShapesD (mu var : Diff α Unit) : Diff α Unit × Diff α Unit := (.bin .mul mu var, .bin .mul (.bin .sub (.const 1) mu) var)

/-- simple_powerlaw_peak_example.py:82-91 `get_weights`, the program of entry `i` in the fourteen sampled hyper-parameters. -/
def plpeakExampleD (mmin mmax : ℝ) (zm : ZModel) (twoD : Bool) (d : PyDict (Arr ℝ)) : Except PyErr (ℕ → Diff (Fin 14) Unit) := do
  let (alpha1, beta1) := plpeakShapesD (.var 5) (.var 6)
  let (alpha2, beta2) := plpeakShapesD (.var 7) (.var 8)
  let m1 ← need' d "mass_1"
  let q ← need' d "mass_ratio"
  let a1 ← need' d "a_1"
  let a2 ← need' d "a_2"
  let ct1 ← need' d "cos_tilt_1"
  let ct2 ← need' d "cos_tilt_2"
  let z ← need' d "redshift"
  let prior ← need' d "prior"
  .ok fun i =>
    let p_m1q := plpeakD (.const (fin (m1.get i))) (.const (fin (q.get i))) (.var 1) (.var 0) (.const (fin mmin)) (.const (fin mmax)) (.var 2) (.var 3) (.var 4)
    let p_a := independentMagnitudeD (.const (fin (a1.get i))) (.const (fin (a2.get i))) alpha1 beta1 alpha2 beta2 (.const 1) (.const 1)
    let p_ct := independentTiltD (.const (fin (ct1.get i))) (.const (fin (ct2.get i))) (.var 9) (.var 10) (.var 11) (.var 12)
    let p_z := zm.callD twoD z (.var 13) i
    .bin .div (.bin .mul (.bin .mul (.bin .mul p_m1q p_a) p_ct) p_z) (.const (fin (prior.get i)))

end GW
end
