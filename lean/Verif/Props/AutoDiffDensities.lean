import Verif.Model.AutoDiffDensities
import Verif.Props.AutoDiff
import Verif.Props.ParamSmooth
import Verif.Model.Parametric

/-! # Property C127: the gradients of the densities in their parameters -/

open Filter Topology Finset ContDiff
noncomputable section
open Classical
namespace GW
open _root_.F

/-! ## Specification -/

/-- a linear form given by its coefficients -/
def formOf {α : Type} [Fintype α] (g : α → ℝ) : (α → ℝ) →L[ℝ] ℝ := ∑ a, g a • ContinuousLinearMap.proj (R := ℝ) (φ := fun _ : α => ℝ) a

/-- near `x` the program computes the real function `f`, and the gradient it returns at `x` is finite and is the derivative of `f` -/
structure Diff.Sound {α : Type} [Fintype α] (p : Diff α Unit) (x : α → ℝ) (f : (α → ℝ) → ℝ) : Prop where
  val : ∀ᶠ y in 𝓝 x, p.f (fun a => fin (y a)) () = fin (f y)
  grad : ∃ g : α → ℝ, HasFDerivAt f (formOf g) x ∧ ∀ ct : ℝ, p.vjp (fun a => fin (x a)) (fun _ => fin ct) = fun a => fin (ct * g a)

/-! ### the programs compute the densities -/

section values
variable {α : Type} (xx al lo hi mu sig be sc : Diff α Unit) (e : α → F)

theorem sel_f (c : (α → F) → Prop) (p q : Diff α Unit) : (Diff.sel c p q).f e () = if c e then p.f e () else q.f e () := rfl
theorem bin_mul_f (p q : Diff α Unit) : (Diff.bin .mul p q).f e () = p.f e () * q.f e () := rfl

theorem powerlawD_f (fl : F) : (powerlawD xx al lo hi fl).f e () = powerlaw_pdf (xx.f e ()) (al.f e ()) (lo.f e ()) (hi.f e ()) fl := by
  simp only [powerlaw_pdf, powerlawD, sel_f, bin_mul_f]
  split_ifs <;> rfl
theorem plLogProbD_f : (plLogProbD al lo hi xx).f e () = pl_log_prob (al.f e ()) (lo.f e ()) (hi.f e ()) (xx.f e ()) := by
  simp only [pl_log_prob, plLogProbD, sel_f]
  split_ifs <;> rfl
theorem betaD_f (fl : F) : (betaD xx al be sc fl).f e () = betadist (xx.f e ()) (al.f e ()) (be.f e ()) (sc.f e ()) fl := by
  simp only [betadist, betaD, sel_f]
  split_ifs <;> rfl
theorem truncnormD_f : (truncnormD xx mu sig lo hi).f e () = truncnorm_pdf (xx.f e ()) (mu.f e ()) (sig.f e ()) (lo.f e ()) (hi.f e ()) := by
  simp only [truncnorm_pdf, truncnormD, sel_f, Bool.false_eq_true, if_false]
  split_ifs <;> rfl
theorem plpeakD_f (m1 q al be mmin mmax mpp sig lam : Diff α Unit) : (plpeakD m1 q al be mmin mmax mpp sig lam).f e () =
    plpeak_primary_ratio_pdf (m1.f e ()) (q.f e ()) (al.f e ()) (be.f e ()) (mmin.f e ()) (mmax.f e ()) (mpp.f e ()) (sig.f e ()) (lam.f e ()) := by
  unfold plpeak_primary_ratio_pdf plpeak_primary_pdf
  change (powerlawD _ _ _ _).f e () * (_ * (powerlawD _ _ _ _).f e () + _ * (truncnormD _ _ _ _ _).f e ()) = _
  rw [powerlawD_f, powerlawD_f, truncnormD_f]
  rfl
end values

/-! ### soundness is preserved by composition -/

namespace Diff.Sound

variable {α : Type} [Fintype α] {p q : Diff α Unit} {x : α → ℝ} {f h : (α → ℝ) → ℝ}

theorem formOf_apply (g : α → ℝ) (u : α → ℝ) : formOf g u = ∑ a, g a * u a := by
  simp [formOf]

theorem congr (hp : p.Sound x f) {f' : (α → ℝ) → ℝ} (hf : ∀ᶠ y in 𝓝 x, f y = f' y) : p.Sound x f' := by
  obtain ⟨v, g, d, w⟩ := hp
  refine ⟨?_, g, d.congr_of_eventuallyEq (hf.mono fun y hy => hy.symm), w⟩
  filter_upwards [v, hf] with y h1 h2
  rw [h1, h2]

theorem continuousAt (hp : p.Sound x f) : ContinuousAt f x := by
  obtain ⟨_, g, d, _⟩ := hp
  exact d.continuousAt

theorem at_point (hp : p.Sound x f) (u : Unit) : p.f (fun a => fin (x a)) u = fin (f x) := hp.val.self_of_nhds

theorem var (a : α) : (Diff.var a).Sound x fun y => y a := by
  refine ⟨.of_forall fun y => rfl, fun b => if b = a then 1 else 0, ?_, ?_⟩
  · have : formOf (fun b => if b = a then (1:ℝ) else 0) = ContinuousLinearMap.proj (R := ℝ) (φ := fun _ : α => ℝ) a := by
      ext u
      simp [formOf_apply]
    rw [this]
    exact (ContinuousLinearMap.proj (R := ℝ) (φ := fun _ : α => ℝ) a).hasFDerivAt
  · intro ct
    funext b
    change (if b = a then fin ct else 0) = _
    by_cases h : b = a <;> simp [h, zero_def]

theorem const (c : ℝ) : (Diff.const (fin c) : Diff α Unit).Sound x fun _ => c := by
  refine ⟨.of_forall fun y => rfl, 0, ?_, ?_⟩
  · have : formOf (0 : α → ℝ) = 0 := by ext u; simp [formOf_apply]
    rw [this]
    exact hasFDerivAt_const c x
  · intro ct
    funext b
    simp [Diff.const, zero_def]

theorem un (hp : p.Sound x f) (op : Diff Unit Unit) (g : ℝ → ℝ) (g' : ℝ) (hv : ∀ᶠ t in 𝓝 (f x), op.f (fun _ => fin t) () = fin (g t))
    (hd : HasDerivAt g g' (f x)) (hw : ∀ ct : ℝ, op.vjp (fun _ => fin (f x)) (fun _ => fin ct) () = fin (ct * g')) :
    (p.andThen op).Sound x fun y => g (f y) := by
  have hc := hp.continuousAt
  have ha := hp.at_point
  obtain ⟨v, k, d, w⟩ := hp
  refine ⟨?_, fun a => g' * k a, ?_, ?_⟩
  · filter_upwards [v, hc.eventually hv] with y h1 h2
    have : (p.f fun a => fin (y a)) = fun _ => fin (f y) := funext fun _ => h1
    simp only [Diff.andThen, this, h2]
  · refine (hd.comp_hasFDerivAt x d).congr_fderiv ?_
    ext u
    simp only [smul_apply, formOf_apply, smul_eq_mul, Finset.mul_sum, mul_assoc]
  · intro ct
    have : (p.f fun a => fin (x a)) = fun _ => fin (f x) := funext fun u => ha u
    have h2 : op.vjp (fun _ => fin (f x)) (fun _ => fin ct) = fun _ => fin (ct * g') := funext fun _ => hw ct
    simp only [Diff.andThen, this, h2, w]
    funext a
    rw [mul_assoc]

theorem bin (hp : p.Sound x f) (hq : q.Sound x h) (op : Diff (Unit ⊕ Unit) Unit) (g : ℝ → ℝ → ℝ) (g1 g2 : ℝ)
    (hv : ∀ᶠ t in 𝓝 (f x, h x), op.f (Sum.elim (fun _ => fin t.1) fun _ => fin t.2) () = fin (g t.1 t.2))
    (hd : HasFDerivAt (fun t : ℝ × ℝ => g t.1 t.2) (g1 • ContinuousLinearMap.fst ℝ ℝ ℝ + g2 • ContinuousLinearMap.snd ℝ ℝ ℝ) (f x, h x))
    (hw : ∀ ct : ℝ, op.vjp (Sum.elim (fun _ => fin (f x)) fun _ => fin (h x)) (fun _ => fin ct) = Sum.elim (fun _ => fin (ct * g1)) fun _ => fin (ct * g2)) :
    (Diff.bin op p q).Sound x fun y => g (f y) (h y) := by
  have hc := hp.continuousAt.prodMk hq.continuousAt
  have ha := hp.at_point
  have hb := hq.at_point
  obtain ⟨v, k, d, w⟩ := hp
  obtain ⟨v', k', d', w'⟩ := hq
  refine ⟨?_, fun a => g1 * k a + g2 * k' a, ?_, ?_⟩
  · filter_upwards [v, v', hc.eventually hv] with y h1 h2 h3
    have e1 : (p.f fun a => fin (y a)) = fun _ => fin (f y) := funext fun _ => h1
    have e2 : (q.f fun a => fin (y a)) = fun _ => fin (h y) := funext fun _ => h2
    simp only [Diff.bin, Diff.andThen, Diff.pair, e1, e2, h3]
  · refine (hd.comp x (d.prodMk d')).congr_fderiv ?_
    ext u
    simp only [ContinuousLinearMap.comp_apply, _root_.add_apply, smul_apply, ContinuousLinearMap.prod_apply,
      ContinuousLinearMap.coe_fst', ContinuousLinearMap.coe_snd', formOf_apply, smul_eq_mul, Finset.mul_sum, add_mul, Finset.sum_add_distrib, mul_assoc]
  · intro ct
    have e1 : (p.f fun a => fin (x a)) = fun _ => fin (f x) := funext fun u => ha u
    have e2 : (q.f fun a => fin (x a)) = fun _ => fin (h x) := funext fun u => hb u
    simp only [Diff.bin, Diff.andThen, Diff.pair, e1, e2, hw, Sum.elim_inl, Sum.elim_inr, w, w', add_fin]
    funext a
    refine congrArg fin ?_
    ring

/-- a sound branch not taken contributes nothing -/
theorem harmless (hp : p.Sound x f) : p.vjp (fun a => fin (x a)) (fun _ => fin 0) = fun _ => fin 0 := by
  obtain ⟨_, g, _, w⟩ := hp
  rw [w 0]; simp

theorem sel_true (hp : p.Sound x f) (hq : q.vjp (fun a => fin (x a)) (fun _ => fin 0) = fun _ => fin 0) (c : (α → F) → Prop)
    (hc : ∀ᶠ y in 𝓝 x, c fun a => fin (y a)) : (Diff.sel c p q).Sound x f := by
  have hcx := hc.self_of_nhds
  obtain ⟨v, g, d, w⟩ := hp
  refine ⟨?_, g, d, ?_⟩
  · filter_upwards [v, hc] with y h1 h2
    simp only [Diff.sel, if_pos h2, h1]
  · intro ct
    simp only [Diff.sel, if_pos hcx, w, zero_def, hq, add_fin, add_zero]

theorem sel_false (hq : q.Sound x f) (hp : p.vjp (fun a => fin (x a)) (fun _ => fin 0) = fun _ => fin 0) (c : (α → F) → Prop)
    (hc : ∀ᶠ y in 𝓝 x, ¬ c fun a => fin (y a)) : (Diff.sel c p q).Sound x f := by
  have hcx := hc.self_of_nhds
  obtain ⟨v, g, d, w⟩ := hq
  refine ⟨?_, g, d, ?_⟩
  · filter_upwards [v, hc] with y h1 h2
    simp only [Diff.sel, if_neg h2, h1]
  · intro ct
    simp only [Diff.sel, if_neg hcx, w, zero_def, hp, add_fin, zero_add]

/-! #### the primitives -/

theorem log (hp : p.Sound x f) (hx : 0 < f x) : (p.andThen .log).Sound x fun y => Real.log (f y) := by
  refine hp.un .log Real.log (f x)⁻¹ ?_ (Real.hasDerivAt_log hx.ne') fun ct => ?_
  · filter_upwards [lt_mem_nhds hx] with t ht
    exact log_fin ht
  · change fin ct / fin (f x) = _
    rw [div_fin hx.ne', div_eq_mul_inv]

theorem exp (hp : p.Sound x f) : (p.andThen .exp).Sound x fun y => Real.exp (f y) := by
  refine hp.un .exp Real.exp (Real.exp (f x)) (.of_forall fun t => rfl) (Real.hasDerivAt_exp _) fun ct => ?_
  change fin ct * F.exp (fin (f x)) = _
  rw [exp_fin, mul_fin]

theorem add (hp : p.Sound x f) (hq : q.Sound x h) : (Diff.bin .add p q).Sound x fun y => f y + h y := by
  refine hp.bin hq .add (· + ·) 1 1 (.of_forall fun t => rfl) ?_ fun ct => ?_
  · rw [one_smul, one_smul]
    exact (hasFDerivAt_fst (𝕜 := ℝ) (p := (f x, h x))).add hasFDerivAt_snd
  · funext i; rcases i with i | i <;> simp [Diff.add]

theorem sub (hp : p.Sound x f) (hq : q.Sound x h) : (Diff.bin .sub p q).Sound x fun y => f y - h y := by
  refine hp.bin hq .sub (· - ·) 1 (-1) (.of_forall fun t => by change fin _ - fin _ = _; rw [sub_fin]) ?_ fun ct => ?_
  · refine ((hasFDerivAt_fst (𝕜 := ℝ) (p := (f x, h x))).sub hasFDerivAt_snd).congr_fderiv ?_
    ext <;> simp
  · funext i; rcases i with i | i <;> simp [Diff.sub, neg_fin]

theorem mul (hp : p.Sound x f) (hq : q.Sound x h) : (Diff.bin .mul p q).Sound x fun y => f y * h y := by
  refine hp.bin hq .mul (· * ·) (h x) (f x) (.of_forall fun t => rfl) ?_ fun ct => ?_
  · refine ((hasFDerivAt_fst (𝕜 := ℝ) (p := (f x, h x))).mul hasFDerivAt_snd).congr_fderiv ?_
    rw [add_comm]
  · funext i; rcases i with i | i <;> simp [Diff.mul, mul_fin]

theorem div (hp : p.Sound x f) (hq : q.Sound x h) (h0 : h x ≠ 0) : (Diff.bin .div p q).Sound x fun y => f y / h y := by
  refine hp.bin hq .div (· / ·) (h x)⁻¹ (-f x / h x ^ 2) ?_ ?_ fun ct => ?_
  · have : ∀ᶠ t : ℝ × ℝ in 𝓝 (f x, h x), t.2 ≠ 0 := continuousAt_snd.eventually_ne h0
    filter_upwards [this] with t ht
    exact div_fin ht
  · have hi := (hasDerivAt_inv h0).comp_hasFDerivAt (f x, h x) (hasFDerivAt_snd (𝕜 := ℝ) (p := (f x, h x)))
    have := (hasFDerivAt_fst (𝕜 := ℝ) (p := (f x, h x))).mul hi
    simp only [div_eq_mul_inv]
    refine this.congr_fderiv ?_
    ext <;> simp
  · have h2 : h x * h x ≠ 0 := mul_ne_zero h0 h0
    funext i
    rcases i with i | i
    · simp [Diff.div, div_fin h0, div_eq_mul_inv]
    · simp only [Diff.div, Sum.elim_inl, Sum.elim_inr, sq_fin, one_def, neg_fin, mul_fin]
      rw [div_fin (by positivity), mul_fin]
      refine congrArg fin ?_
      field_simp

theorem pow (hp : p.Sound x f) (hq : q.Sound x h) (h0 : 0 < f x) : (Diff.bin .pow p q).Sound x fun y => f y ^ h y := by
  refine hp.bin hq .pow (fun a b => a ^ b) (h x * f x ^ (h x - 1)) (Real.log (f x) * f x ^ h x) ?_ ?_ fun ct => ?_
  · have : ∀ᶠ t : ℝ × ℝ in 𝓝 (f x, h x), 0 < t.1 := continuousAt_fst.eventually (lt_mem_nhds h0)
    filter_upwards [this] with t ht
    exact pow_fin_pos ht _
  · refine (Real.hasStrictFDerivAt_rpow_of_pos (f x, h x) h0).hasFDerivAt.congr_fderiv ?_
    ext <;> simp <;> ring
  · funext i
    rcases i with i | i
    · simp only [Diff.pow, Sum.elim_inl, Sum.elim_inr, one_def, sub_fin, pow_fin_pos h0, mul_fin, fin.injEq]
      split_ifs with hz
      · simp [hz, zero_def]
      · rw [mul_fin]
    · simp only [Diff.pow, Sum.elim_inl, Sum.elim_inr, pow_fin_pos h0, log_fin h0, mul_fin]

theorem neg (hp : p.Sound x f) : (p.andThen .neg).Sound x fun y => -f y :=
  hp.un .neg (fun t => -t) (-1) (.of_forall fun t => rfl) (hasDerivAt_neg _) fun ct => by simp [Diff.neg]

theorem sq (hp : p.Sound x f) : (p.andThen sqD).Sound x fun y => f y * f y := by
  refine hp.un sqD (fun t => t * t) (2 * f x) (.of_forall fun t => ?_) ?_ fun ct => ?_
  · exact pow_two_fin t
  · rw [two_mul]
    simpa using (hasDerivAt_id' (f x)).fun_mul (hasDerivAt_id' (f x))
  · simp [sqD, ofNat_def]

theorem erf (hp : p.Sound x f) : (p.andThen erfD).Sound x fun y => GW.erf (f y) := by
  refine hp.un erfD GW.erf _ (.of_forall fun t => rfl) (erf_hasDerivAt _) fun ct => ?_
  simp only [erfD, sq_fin, neg_fin, exp_fin, mul_fin, pow_two]

/-- the function in the statement may be read off the program -/
theorem read (hp : p.Sound x f) {f' : (α → ℝ) → F} (hf : ∀ᶠ y in 𝓝 x, p.f (fun a => fin (y a)) () = f' y) : p.Sound x fun y => (f' y).toReal :=
  hp.congr <| by
    filter_upwards [hp.val, hf] with y h1 h2
    rw [← h2, h1, toReal_fin]

end Diff.Sound

/-! ### the densities -/

section densities
variable {α : Type} [Fintype α] {xx al lo hi mu sig be sc : Diff α Unit} {x : α → ℝ} {fx fa fl fh fm fs fb fc : (α → ℝ) → ℝ}

theorem powDiffD_sound (ha : al.Sound x fa) (hl : lo.Sound x fl) (hh : hi.Sound x fh) (l0 : 0 < fl x) (h0 : 0 < fh x) :
    (powDiffD al lo hi).Sound x fun y => fh y ^ (1 + fa y) - fl y ^ (1 + fa y) :=
  (hh.pow ((Diff.Sound.const 1).add ha) h0).sub (hl.pow ((Diff.Sound.const 1).add ha) l0)

theorem rpow_ne {a l h : ℝ} (l0 : 0 < l) (h0 : 0 < h) (hlh : l ≠ h) (ha : a ≠ -1) : h ^ (1 + a) - l ^ (1 + a) ≠ 0 := by
  intro e
  have := Real.rpow_left_injOn (x := 1 + a) (fun e => ha (by linarith)) h0.le l0.le (by simpa using sub_eq_zero.1 e)
  exact hlh this.symm

/-- a condition between sound programs is locally constant away from equality -/
theorem lt_const {f h : (α → ℝ) → ℝ} {p q : Diff α Unit} (hp : p.Sound x f) (hq : q.Sound x h) (hne : f x ≠ h x) :
    (f x < h x ∧ ∀ᶠ y in 𝓝 x, f y < h y ∧ p.f (fun a => fin (y a)) () = fin (f y) ∧ q.f (fun a => fin (y a)) () = fin (h y)) ∨
    (h x < f x ∧ ∀ᶠ y in 𝓝 x, h y < f y ∧ p.f (fun a => fin (y a)) () = fin (f y) ∧ q.f (fun a => fin (y a)) () = fin (h y)) := by
  rcases lt_or_gt_of_ne hne with h' | h'
  · refine Or.inl ⟨h', ?_⟩
    filter_upwards [hp.continuousAt.eventually_lt hq.continuousAt h', hp.val, hq.val] with y h1 h2 h3
    exact ⟨h1, h2, h3⟩
  · refine Or.inr ⟨h', ?_⟩
    filter_upwards [hq.continuousAt.eventually_lt hp.continuousAt h', hp.val, hq.val] with y h1 h2 h3
    exact ⟨h1, h2, h3⟩

/-- away from the two bounds, being outside them is locally constant -/
theorem outside_const (hx : xx.Sound x fx) (hl : lo.Sound x fl) (hh : hi.Sound x fh) (hxl : fx x ≠ fl x) (hxh : fx x ≠ fh x) :
    (∀ᶠ y in 𝓝 x, fx y < fl y ∨ fh y < fx y) ∨ ∀ᶠ y in 𝓝 x, ¬ (fx y < fl y ∨ fh y < fx y) := by
  rcases lt_const hx hl hxl with ⟨-, h⟩ | ⟨-, h⟩
  · exact .inl (h.mono fun y h => .inl h.1)
  rcases lt_const hx hh hxh with ⟨-, h'⟩ | ⟨-, h'⟩
  · refine .inr ?_
    filter_upwards [h, h'] with y h1 h2
    push Not
    exact ⟨h1.1.le, h2.1.le⟩
  · exact .inl (h'.mono fun y h => .inr h.1)

theorem powerlawD_sound' (hx : xx.Sound x fx) (ha : al.Sound x fa) (hl : lo.Sound x fl) (hh : hi.Sound x fh) (c : ℝ) (x0 : 0 < fx x) (l0 : 0 < fl x)
    (h0 : 0 < fh x) (hlh : fl x ≠ fh x) (hout : (∀ᶠ y in 𝓝 x, fx y < fl y ∨ fh y < fx y) ∨ ∀ᶠ y in 𝓝 x, ¬ (fx y < fl y ∨ fh y < fx y)) (ha1 : fa x ≠ -1) :
    (powerlawD xx al lo hi (fin c)).Sound x fun y => (powerlaw_pdf (fin (fx y)) (fin (fa y)) (fin (fl y)) (fin (fh y)) (fin c)).toReal := by
  have hlog : (Diff.bin .div (.const 1) ((Diff.bin .div hi lo).andThen .log)).Sound x fun y => 1 / Real.log (fh y / fl y) := by
    refine (Diff.Sound.const 1).div ((hh.div hl l0.ne').log (div_pos h0 l0)) ?_
    refine Real.log_ne_zero_of_pos_of_ne_one (div_pos h0 l0) ?_
    rw [Ne, div_eq_one_iff_eq l0.ne']
    exact fun e => hlh e.symm
  have hpow : (Diff.bin .div (.bin .add (.const 1) al) (powDiffD al lo hi)).Sound x fun y => (1 + fa y) / (fh y ^ (1 + fa y) - fl y ^ (1 + fa y)) :=
    ((Diff.Sound.const 1).add ha).div (powDiffD_sound ha hl hh l0 h0) (rpow_ne l0 h0 hlh ha1)
  have hnorm := hpow.sel_false hlog.harmless (fun e => feq (al.f e ()) (-1)) (by
    filter_upwards [ha.val, ha.continuousAt.eventually_ne ha1] with y h1 h2
    rw [h1, one_def, neg_fin, feq_fin]
    exact h2)
  have hmain := (hx.pow ha x0).mul hnorm
  have hread : ∀ᶠ y in 𝓝 x, (powerlawD xx al lo hi (fin c)).f (fun a => fin (y a)) () =
      powerlaw_pdf (fin (fx y)) (fin (fa y)) (fin (fl y)) (fin (fh y)) (fin c) := by
    filter_upwards [hx.val, ha.val, hl.val, hh.val] with y h1 h2 h3 h4
    rw [powerlawD_f, h1, h2, h3, h4]
  rcases hout with hout | hout
  · refine ((Diff.Sound.const c).sel_true hmain.harmless _ ?_).read hread
    filter_upwards [hx.val, hl.val, hh.val, hout] with y h1 h2 h3 h4
    rw [h1, h2, h3]
    exact h4
  · refine (hmain.sel_false ((Diff.Sound.const c).harmless) _ ?_).read hread
    filter_upwards [hx.val, hl.val, hh.val, hout] with y h1 h2 h3 h4
    rw [h1, h2, h3]
    exact h4

theorem powerlawD_sound (hx : xx.Sound x fx) (ha : al.Sound x fa) (hl : lo.Sound x fl) (hh : hi.Sound x fh) (c : ℝ) (x0 : 0 < fx x) (l0 : 0 < fl x)
    (h0 : 0 < fh x) (hlh : fl x ≠ fh x) (hxl : fx x ≠ fl x) (hxh : fx x ≠ fh x) (ha1 : fa x ≠ -1) :
    (powerlawD xx al lo hi (fin c)).Sound x fun y => (powerlaw_pdf (fin (fx y)) (fin (fa y)) (fin (fl y)) (fin (fh y)) (fin c)).toReal :=
  powerlawD_sound' hx ha hl hh c x0 l0 h0 hlh (outside_const hx hl hh hxl hxh) ha1

theorem log_ratio_sound (hl : lo.Sound x fl) (hh : hi.Sound x fh) (l0 : 0 < fl x) (h0 : 0 < fh x) :
    ((Diff.bin .div hi lo).andThen .log).Sound x fun y => Real.log (fh y / fl y) := (hh.div hl l0.ne').log (div_pos h0 l0)

theorem plLogProbD_sound (hx : xx.Sound x fx) (ha : al.Sound x fa) (hl : lo.Sound x fl) (hh : hi.Sound x fh) (x0 : 0 < fx x) (l0 : 0 < fl x)
    (hlh : fl x < fh x) (hxl : fx x ≠ fl x) (hxh : fx x ≠ fh x) (ha1 : fa x ≠ -1) :
    (plLogProbD al lo hi xx).Sound x fun y => (pl_log_prob (fin (fa y)) (fin (fl y)) (fin (fh y)) (fin (fx y))).toReal := by
  have h0 := l0.trans hlh
  have hneg := (hx.log x0).neg.sub (log_ratio_sound hl hh l0 h0)
  have hpos : 0 < (1 + fa x) / (fh x ^ (1 + fa x) - fl x ^ (1 + fa x)) := by
    rcases lt_or_gt_of_ne ha1 with h | h
    · exact div_pos_of_neg_of_neg (by linarith) (sub_neg.2 (Real.rpow_lt_rpow_of_neg l0 hlh (by linarith)))
    · exact div_pos (by linarith) (sub_pos.2 (Real.rpow_lt_rpow l0.le hlh (by linarith)))
  have hpow := ((((Diff.Sound.const 1).add ha).div (powDiffD_sound ha hl hh l0 h0) (rpow_ne l0 h0 hlh.ne ha1)).log hpos)
  have hmain := ((ha.mul (hx.log x0)).add hpow).sel_false hneg.harmless (fun e => feq (al.f e ()) (-1)) (by
    filter_upwards [ha.val, ha.continuousAt.eventually_ne ha1] with y h1 h2
    rw [h1, one_def, neg_fin, feq_fin]
    exact h2)
  have hread : ∀ᶠ y in 𝓝 x, (plLogProbD al lo hi xx).f (fun a => fin (y a)) () = pl_log_prob (fin (fa y)) (fin (fl y)) (fin (fh y)) (fin (fx y)) := by
    filter_upwards [hx.val, ha.val, hl.val, hh.val] with y h1 h2 h3 h4
    rw [plLogProbD_f, h1, h2, h3, h4]
  have hconst : (Diff.const (F.nanToNum ninf) : Diff α Unit).Sound x fun _ => -BIG := Diff.Sound.const (-BIG)
  by_cases hin : fl x < fx x ∧ fx x < fh x
  · refine (hmain.sel_false hconst.harmless _ ?_).read hread
    rcases lt_const hx hl hxl with ⟨h, _⟩ | ⟨_, h⟩
    · exact absurd hin.1 (not_lt.2 h.le)
    rcases lt_const hx hh hxh with ⟨_, h'⟩ | ⟨h', _⟩
    swap
    · exact absurd hin.2 (not_lt.2 h'.le)
    filter_upwards [h, h'] with y h1 h2
    rw [h1.2.1, h1.2.2, h2.2.2]
    change ¬ (fx y < fl y ∨ fh y < fx y)
    push Not
    exact ⟨h1.1.le, h2.1.le⟩
  · refine (hconst.sel_true hmain.harmless _ ?_).read hread
    rcases lt_const hx hl hxl with ⟨_, h⟩ | ⟨h, _⟩
    · filter_upwards [h] with y h1
      rw [h1.2.1, h1.2.2]
      exact Or.inl h1.1
    rcases lt_const hx hh hxh with ⟨h', _⟩ | ⟨_, h'⟩
    · exact absurd ⟨h, h'⟩ hin
    filter_upwards [h'] with y h1
    rw [h1.2.1, h1.2.2]
    exact Or.inr h1.1

theorem gcdfD_sound {v : Diff α Unit} {fv : (α → ℝ) → ℝ} (hv : v.Sound x fv) (hm : mu.Sound x fm) (hs : sig.Sound x fs) (s0 : 0 < fs x) :
    (Diff.bin .mul (.const (fin (1/2))) (.bin .add (.const 1)
      ((Diff.bin .div (.bin .sub v mu) (.bin .mul sig (.const (F.pow 2 (fin (1/2)))))).andThen erfD))).Sound x
      fun y => gcdf (fm y) (fs y) (fv y) := by
  have h2 : F.pow 2 (fin (1/2)) = fin (Real.sqrt 2) := by rw [ofNat_def]; exact_mod_cast pow_half_fin (x := 2) (by norm_num)
  rw [h2]
  exact (Diff.Sound.const (1/2)).mul ((Diff.Sound.const 1).add ((hv.sub hm).div (hs.mul (Diff.Sound.const (Real.sqrt 2)))
    (mul_ne_zero s0.ne' (by positivity))).erf)

theorem truncnormD_sound' (hx : xx.Sound x fx) (hm : mu.Sound x fm) (hs : sig.Sound x fs) (hl : lo.Sound x fl) (hh : hi.Sound x fh) (s0 : 0 < fs x)
    (hlh : fl x ≠ fh x) (hout : (∀ᶠ y in 𝓝 x, fx y < fl y ∨ fh y < fx y) ∨ ∀ᶠ y in 𝓝 x, ¬ (fx y < fl y ∨ fh y < fx y)) :
    (truncnormD xx mu sig lo hi).Sound x fun y => (truncnorm_pdf (fin (fx y)) (fin (fm y)) (fin (fs y)) (fin (fl y)) (fin (fh y))).toReal := by
  have hp : F.pow (2 * fin Real.pi) (fin (1/2)) = fin (Real.sqrt (2 * Real.pi)) := by
    rw [ofNat_def, mul_fin]; exact_mod_cast pow_half_fin (x := 2 * Real.pi) (by positivity)
  have hden := (gcdfD_sound hh hm hs s0).sub (gcdfD_sound hl hm hs s0)
  have hne : gcdf (fm x) (fs x) (fh x) - gcdf (fm x) (fs x) (fl x) ≠ 0 := by
    rw [sub_ne_zero]
    exact fun e => hlh ((gcdf_strictMono s0).injective e).symm
  have hcn : (Diff.bin .div (.const 1) (.bin .mul sig (.const (F.pow (2 * fin Real.pi) (fin (1/2)))))).Sound x
      fun y => 1 / (fs y * Real.sqrt (2 * Real.pi)) := by
    rw [hp]
    exact (Diff.Sound.const 1).div (hs.mul (Diff.Sound.const _)) (mul_ne_zero s0.ne' (by positivity))
  have hprob := (((hx.sub hm).sq.neg.div ((Diff.Sound.const 2).mul hs.sq) (by positivity))).exp
  have hmain := hprob.mul (hcn.div hden hne)
  have hread : ∀ᶠ y in 𝓝 x, (truncnormD xx mu sig lo hi).f (fun a => fin (y a)) () =
      truncnorm_pdf (fin (fx y)) (fin (fm y)) (fin (fs y)) (fin (fl y)) (fin (fh y)) := by
    filter_upwards [hx.val, hm.val, hs.val, hl.val, hh.val] with y h1 h2 h3 h4 h5
    rw [truncnormD_f, h1, h2, h3, h4, h5]
  rcases hout with hout | hout
  · refine ((Diff.Sound.const 0).sel_true hmain.harmless _ ?_).read hread
    filter_upwards [hx.val, hl.val, hh.val, hout] with y h1 h2 h3 h4
    rw [h1, h2, h3]
    exact h4.symm
  · refine (hmain.sel_false ((Diff.Sound.const 0).harmless) _ ?_).read hread
    filter_upwards [hx.val, hl.val, hh.val, hout] with y h1 h2 h3 h4
    rw [h1, h2, h3]
    exact fun h => h4 h.symm

theorem truncnormD_sound (hx : xx.Sound x fx) (hm : mu.Sound x fm) (hs : sig.Sound x fs) (hl : lo.Sound x fl) (hh : hi.Sound x fh) (s0 : 0 < fs x)
    (hlh : fl x ≠ fh x) (hxl : fx x ≠ fl x) (hxh : fx x ≠ fh x) :
    (truncnormD xx mu sig lo hi).Sound x fun y => (truncnorm_pdf (fin (fx y)) (fin (fm y)) (fin (fs y)) (fin (fl y)) (fin (fh y))).toReal :=
  truncnormD_sound' hx hm hs hl hh s0 hlh (outside_const hx hl hh hxl hxh)

theorem gammaln_deriv {a : ℝ} (h : 0 < a) : HasDerivAt gammaln (deriv gammaln a) a := by
  refine DifferentiableAt.hasDerivAt ?_
  have := (Gamma_contDiffAt h).differentiableAt (by simp)
  exact this.log (Real.Gamma_pos_of_pos h).ne'

theorem betalnD_sound (ha : al.Sound x fa) (hb : be.Sound x fb) (a0 : 0 < fa x) (b0 : 0 < fb x) :
    (Diff.bin betalnD al be).Sound x fun y => gammaln (fa y) + gammaln (fb y) - gammaln (fa y + fb y) := by
  have d1 := gammaln_deriv a0
  have d2 := gammaln_deriv b0
  have d3 := gammaln_deriv (add_pos a0 b0)
  have e1 : deriv (fun t => (betalnF (fin t) (fin (fb x))).toReal) (fa x) = deriv gammaln (fa x) - deriv gammaln (fa x + fb x) := by
    refine HasDerivAt.deriv (HasDerivAt.congr_of_eventuallyEq ((d1.add_const (gammaln (fb x))).sub (HasDerivAt.comp_add_const (fa x) (fb x) d3)) ?_)
    filter_upwards [lt_mem_nhds a0] with t ht
    simp [betalnF, ht, b0]
  have e2 : deriv (fun t => (betalnF (fin (fa x)) (fin t)).toReal) (fb x) = deriv gammaln (fb x) - deriv gammaln (fa x + fb x) := by
    refine HasDerivAt.deriv (HasDerivAt.congr_of_eventuallyEq ((d2.const_add (gammaln (fa x))).sub (HasDerivAt.comp_const_add (fa x) (fb x) d3)) ?_)
    filter_upwards [lt_mem_nhds b0] with t ht
    simp [betalnF, ht, a0]
  refine ha.bin hb betalnD (fun a b => gammaln a + gammaln b - gammaln (a + b)) (deriv gammaln (fa x) - deriv gammaln (fa x + fb x))
    (deriv gammaln (fb x) - deriv gammaln (fa x + fb x)) ?_ ?_ fun ct => ?_
  · filter_upwards [continuousAt_fst.eventually (lt_mem_nhds a0), continuousAt_snd.eventually (lt_mem_nhds b0)] with t h1 h2
    simp only [betalnD, Sum.elim_inl, Sum.elim_inr, betalnF]
    rw [if_pos ⟨h1, h2⟩]
  · have k1 := d1.comp_hasFDerivAt (fa x, fb x) (hasFDerivAt_fst (𝕜 := ℝ) (p := (fa x, fb x)))
    have k2 := d2.comp_hasFDerivAt (fa x, fb x) (hasFDerivAt_snd (𝕜 := ℝ) (p := (fa x, fb x)))
    have k3 := HasDerivAt.comp_hasFDerivAt (h₂ := gammaln) (f := fun t : ℝ × ℝ => t.1 + t.2) (fa x, fb x) d3
      ((hasFDerivAt_fst (𝕜 := ℝ) (p := (fa x, fb x))).add hasFDerivAt_snd)
    refine ((k1.add k2).sub k3).congr_fderiv ?_
    ext <;> simp
  · simp only [betalnD, Sum.elim_inl, Sum.elim_inr, e1, e2, mul_fin]

theorem betaD_sound (hx : xx.Sound x fx) (ha : al.Sound x fa) (hb : be.Sound x fb) (hc : sc.Sound x fc) (c : ℝ) (a0 : 0 < fa x) (b0 : 0 < fb x)
    (x0 : 0 < fx x) (hxc : fx x < fc x) :
    (betaD xx al be sc (fin c)).Sound x fun y => (betadist (fin (fx y)) (fin (fa y)) (fin (fb y)) (fin (fc y)) (fin c)).toReal := by
  have h1 := Diff.Sound.const (α := α) (x := x) 1
  have hmain := ((((ha.sub h1).mul (hx.log x0)).add ((hb.sub h1).mul ((hc.sub hx).log (sub_pos.2 hxc)))).sub
    (((ha.add hb).sub h1).mul (hc.log (x0.trans hxc)))).sub (betalnD_sound ha hb a0 b0) |>.exp
  refine (hmain.sel_true ((Diff.Sound.const c).harmless) _ ?_).read ?_
  · filter_upwards [hx.val, hc.val, hx.continuousAt.eventually_lt hc.continuousAt hxc, hx.continuousAt.eventually (lt_mem_nhds x0)] with y e1 e2 e3 e4
    rw [e1, e2]
    exact ⟨e3.le, e4.le⟩
  · filter_upwards [hx.val, ha.val, hb.val, hc.val] with y e1 e2 e3 e4
    change (betaD xx al be sc (fin c)).f (fun a => fin (y a)) () = _
    rw [betaD_f, e1, e2, e3, e4]

theorem plpeakD_sound {m1 q al be mmin mmax mpp sig lam : Diff α Unit} {fm1 fq fa fb fmin fmax fpp fs flam : (α → ℝ) → ℝ}
    (hm1 : m1.Sound x fm1) (hq : q.Sound x fq) (ha : al.Sound x fa) (hb : be.Sound x fb) (hmin : mmin.Sound x fmin) (hmax : mmax.Sound x fmax)
    (hpp : mpp.Sound x fpp) (hs : sig.Sound x fs) (hlam : lam.Sound x flam)
    (m0 : 0 < fm1 x) (q0 : 0 < fq x) (q1 : fq x ≠ 1) (min0 : 0 < fmin x) (max0 : 0 < fmax x) (hlh : fmin x ≠ fmax x) (s0 : 0 < fs x)
    (e1 : fm1 x ≠ fmin x) (e2 : fm1 x ≠ fmax x) (e3 : fq x * fm1 x ≠ fmin x) (ha1 : fa x ≠ -1) (hb1 : fb x ≠ -1) :
    (plpeakD m1 q al be mmin mmax mpp sig lam).Sound x fun y => (plpeak_primary_ratio_pdf (fin (fm1 y)) (fin (fq y)) (fin (fa y)) (fin (fb y))
      (fin (fmin y)) (fin (fmax y)) (fin (fpp y)) (fin (fs y)) (fin (flam y))).toReal := by
  have hr := hmin.div hm1 m0.ne'
  have k1 := powerlawD_sound hq hb hr (Diff.Sound.const 1) 0 q0 (div_pos min0 m0) one_pos
    (by rw [Ne, div_eq_one_iff_eq m0.ne']; exact fun e => e1 e.symm) (by rw [Ne, eq_div_iff m0.ne']; exact e3) q1 hb1
  have k2 := powerlawD_sound hm1 ha hmin hmax 0 m0 min0 max0 hlh e1 e2 ha1
  have k3 := truncnormD_sound hm1 hpp hs hmin hmax s0 hlh e1 e2
  refine (k1.mul ((((Diff.Sound.const 1).sub hlam).mul k2).add (hlam.mul k3))).read ?_
  filter_upwards [hm1.val, hq.val, ha.val, hb.val, hmin.val, hmax.val, hpp.val, hs.val, hlam.val] with y h1 h2 h3 h4 h5 h6 h7 h8 h9
  change (plpeakD m1 q al be mmin mmax mpp sig lam).f (fun a => fin (y a)) () = _
  rw [plpeakD_f, h1, h2, h3, h4, h5, h6, h7, h8, h9]

end densities

/-! ### the property -/

/-- **C127** (`powerlaw_pdf`).  For a slope other than -1, at every point other than the two bounds (inside or outside the range), automatic
differentiation returns the derivative of the density in slope, lower and upper bound.  Missing: the slope -1, see `C127_powerlaw_fails`. -/
theorem C127_powerlaw_partial (x α low high : ℝ) (x0 : 0 < x) (h0 : 0 < low) (h : low < high) (h1 : x ≠ low) (h2 : x ≠ high) (hα : α ≠ -1) :
    (powerlawD (.const (fin x)) (.var 0) (.var 1) (.var 2)).Sound ![α, low, high]
      fun θ : Fin 3 → ℝ => (powerlaw_pdf (fin x) (fin (θ 0)) (fin (θ 1)) (fin (θ 2))).toReal :=
  powerlawD_sound (.const x) (.var 0) (.var 1) (.var 2) 0 x0 h0 (h0.trans h) h.ne h1 h2 hα

/-- **C127** (`Powerlaw.log_prob`): the same for the log density, wherever the log density is not the constant of the cut. -/
theorem C127_powerlaw_log_partial (x α low high : ℝ) (x0 : 0 < x) (h0 : 0 < low) (h : low < high) (h1 : x ≠ low) (h2 : x ≠ high) (hα : α ≠ -1) :
    (plLogProbD (.var 0) (.var 1) (.var 2) (.const (fin x))).Sound ![α, low, high]
      fun θ : Fin 3 → ℝ => (pl_log_prob (fin (θ 0)) (fin (θ 1)) (fin (θ 2)) (fin x)).toReal :=
  plLogProbD_sound (.const x) (.var 0) (.var 1) (.var 2) x0 h0 h h1 h2 hα

/-- **C127** (`truncnorm_pdf`): every point other than the two bounds. -/
theorem C127_truncnorm (x mu sig low high : ℝ) (hs : 0 < sig) (h : low < high) (h1 : x ≠ low) (h2 : x ≠ high) :
    (truncnormD (.const (fin x)) (.var 0) (.var 1) (.var 2) (.var 3)).Sound ![mu, sig, low, high]
      fun θ : Fin 4 → ℝ => (truncnorm_pdf (fin x) (fin (θ 0)) (fin (θ 1)) (fin (θ 2)) (fin (θ 3))).toReal :=
  truncnormD_sound (.const x) (.var 0) (.var 1) (.var 2) (.var 3) hs h.ne h1 h2

/-- **C127** (`betadist`): every point strictly inside the range.  Missing: the points outside and at the ends, see `C127_beta_outside_fails` and
`C127_beta_end_fails`. -/
theorem C127_beta_partial (x α β s : ℝ) (hα : 0 < α) (hβ : 0 < β) (h1 : 0 < x) (h2 : x < s) :
    (betaD (.const (fin x)) (.var 0) (.var 1) (.var 2)).Sound ![α, β, s]
      fun θ : Fin 3 → ℝ => (betadist (fin x) (fin (θ 0)) (fin (θ 1)) (fin (θ 2))).toReal :=
  betaD_sound (.const x) (.var 0) (.var 1) (.var 2) 0 hα hβ h1 h2

/-! #### where the gradient is NaN -/

section nan
variable {α : Type}

/-- a NaN cotangent reaches entry `a` -/
def NanAt (p : Diff α Unit) (e : α → F) (a : α) : Prop := ∀ ct : Unit → F, ct () = nan → p.vjp e ct a = nan

theorem NanAt.var (e : α → F) (a : α) : NanAt (.var a) e a := fun ct h => (if_pos rfl).trans h
theorem NanAt.sub_left {p q : Diff α Unit} {e : α → F} {a : α} (hp : NanAt p e a) : NanAt (.bin .sub p q) e a := fun ct h => by
  change p.vjp e (fun b => ct b) a + _ = nan
  rw [hp _ h, nan_add]
theorem NanAt.sub_right {p q : Diff α Unit} {e : α → F} {a : α} (hq : NanAt q e a) : NanAt (.bin .sub p q) e a := fun ct h => by
  change _ + q.vjp e (fun b => -ct b) a = nan
  rw [hq _ (by rw [h]; rfl), add_nan]
theorem NanAt.add_left {p q : Diff α Unit} {e : α → F} {a : α} (hp : NanAt p e a) : NanAt (.bin .add p q) e a := fun ct h => by
  change p.vjp e (fun b => ct b) a + _ = nan
  rw [hp _ h, nan_add]
theorem NanAt.add_right {p q : Diff α Unit} {e : α → F} {a : α} (hq : NanAt q e a) : NanAt (.bin .add p q) e a := fun ct h => by
  change _ + q.vjp e (fun b => ct b) a = nan
  rw [hq _ h, add_nan]
theorem NanAt.mul_left {p q : Diff α Unit} {e : α → F} {a : α} (hp : NanAt p e a) : NanAt (.bin .mul p q) e a := fun ct h => by
  change p.vjp e (fun b => ct b * q.f e b) a + _ = nan
  rw [hp _ (by rw [h, nan_mul]), nan_add]
theorem NanAt.mul_right {p q : Diff α Unit} {e : α → F} {a : α} (hq : NanAt q e a) : NanAt (.bin .mul p q) e a := fun ct h => by
  change _ + q.vjp e (fun b => ct b * p.f e b) a = nan
  rw [hq _ (by rw [h, nan_mul]), add_nan]
theorem NanAt.div_left {p q : Diff α Unit} {e : α → F} {a : α} (hp : NanAt p e a) : NanAt (.bin .div p q) e a := fun ct h => by
  change p.vjp e (fun b => ct b / q.f e b) a + _ = nan
  rw [hp _ (by rw [h, nan_div]), nan_add]
theorem NanAt.pow_left {p q : Diff α Unit} {e : α → F} {a : α} (hp : NanAt p e a) : NanAt (.bin .pow p q) e a := fun ct h => by
  change p.vjp e (fun b => ct b * (if q.f e b = fin 0 then 0 else q.f e b * F.pow (p.f e b) (q.f e b - 1))) a + _ = nan
  rw [hp _ (by rw [h, nan_mul]), nan_add]
theorem NanAt.log {p : Diff α Unit} {e : α → F} {a : α} (hp : NanAt p e a) : NanAt (p.andThen .log) e a := fun ct h => by
  change p.vjp e (fun b => ct b / p.f e b) a = nan
  rw [hp _ (by rw [h, nan_div])]
theorem NanAt.exp {p : Diff α Unit} {e : α → F} {a : α} (hp : NanAt p e a) : NanAt (p.andThen .exp) e a := fun ct h => by
  change p.vjp e (fun b => ct b * F.exp (p.f e b)) a = nan
  rw [hp _ (by rw [h, nan_mul])]

/-- the branch not taken, with cotangent zero (or NaN): its pullback is NaN at the slope and at the bounds -/
theorem quotient_nan_all {al lo hi : Diff α Unit} {e : α → F} {l h : ℝ} (ha : al.f e () = fin (-1)) (hl : lo.f e () = fin l) (hh : hi.f e () = fin h)
    {a : α} (hn : NanAt al e a ∨ NanAt lo e a ∨ NanAt hi e a) (c : Unit → F) (hc : c () = fin 0 ∨ c () = nan) :
    (Diff.bin .div (.bin .add (.const 1) al) (powDiffD al lo hi)).vjp e c a = nan := by
  have h1 : (1 : F) + fin (-1) = fin 0 := by rw [one_def, add_fin]; norm_num
  have h0 : (powDiffD al lo hi).f e () = fin 0 := by
    change F.pow (hi.f e ()) (1 + al.f e ()) - F.pow (lo.f e ()) (1 + al.f e ()) = _
    rw [ha, hl, hh, h1]
    simp
  change (Diff.bin .add (.const 1) al).vjp e (fun b => c b / (powDiffD al lo hi).f e b) a +
    (powDiffD al lo hi).vjp e (fun b => -c b * (1 + al.f e b) * (1 / F.sq ((powDiffD al lo hi).f e b))) a = nan
  have k1 : c () / (powDiffD al lo hi).f e () = nan := by
    rw [h0]
    rcases hc with h | h <;> rw [h]
    · exact zero_div_zero_nan
    · rfl
  have k2 : -c () * (1 + al.f e ()) * (1 / F.sq ((powDiffD al lo hi).f e ())) = nan := by
    rw [h0, ha, h1]
    rcases hc with h | h <;> rw [h]
    · rw [neg_fin, mul_fin, sq_fin, one_def]
      simp only [mul_zero, neg_zero]
      have : (fin 1 / fin 0 : F) = pinf := by
        rw [div_fin_zero]
        simp [infOfSign]
      rw [this, fin_mul_pinf]
      simp [infOfSign]
    · rfl
  rcases hn with hn | hn | hn
  · rw [hn.add_right _ k1, nan_add]
  · have h2 : NanAt (powDiffD al lo hi) e a := NanAt.sub_right hn.pow_left
    rw [h2 _ k2, add_nan]
  · have h2 : NanAt (powDiffD al lo hi) e a := NanAt.sub_left hn.pow_left
    rw [h2 _ k2, add_nan]

theorem powerlawD_nan {xx al lo hi : Diff α Unit} {e : α → F} {l h : ℝ} (fl : F) (ha : al.f e () = fin (-1)) (hl : lo.f e () = fin l)
    (hh : hi.f e () = fin h) {a : α} (hn : NanAt al e a ∨ NanAt lo e a ∨ NanAt hi e a) (ct : Unit → F) : (powerlawD xx al lo hi fl).vjp e ct a = nan := by
  have hf : feq (al.f e ()) (-1) := by
    rw [ha, one_def, neg_fin, feq_fin]
  change _ + (_ + (_ + (Diff.bin .div (.bin .add (.const 1) al) (powDiffD al lo hi)).vjp e (fun u => if feq (al.f e ()) (-1) then 0 else _) a)) = nan
  rw [quotient_nan_all ha hl hh hn _ (Or.inl (if_pos hf))]
  simp

theorem plLogProbD_nan {xx al lo hi : Diff α Unit} {e : α → F} {l h : ℝ} (ha : al.f e () = fin (-1)) (hl : lo.f e () = fin l)
    (hh : hi.f e () = fin h) {a : α} (hn : NanAt al e a ∨ NanAt lo e a ∨ NanAt hi e a) (ct : Unit → F) : (plLogProbD al lo hi xx).vjp e ct a = nan := by
  have h1 : (1 : F) + fin (-1) = fin 0 := by rw [one_def, add_fin]; norm_num
  have h0 : (Diff.bin .div (.bin .add (.const 1) al) (powDiffD al lo hi)).f e () = nan := by
    change (1 + al.f e ()) / (F.pow (hi.f e ()) (1 + al.f e ()) - F.pow (lo.f e ()) (1 + al.f e ())) = _
    rw [ha, hl, hh, h1, pow_fin_zero, pow_fin_zero, sub_fin, sub_self]
    exact zero_div_zero_nan
  change _ + (_ + (_ + (Diff.bin .div (.bin .add (.const 1) al) (powDiffD al lo hi)).vjp e (fun u => _ / 
      (Diff.bin .div (.bin .add (.const 1) al) (powDiffD al lo hi)).f e u) a)) = nan
  rw [quotient_nan_all ha hl hh hn _ (Or.inr (by rw [h0, div_nan]))]
  simp

/-- **C127, refuted at the slope -1** (`powerlaw_pdf`): the density is infinitely often differentiable there, but all three entries of the gradient are
NaN, at every point inside or outside the range and for every incoming cotangent: the branch of the `where` that is not taken divides 0 by 0. -/
theorem C127_powerlaw_fails (x low high : ℝ) (ct : F) :
    (∀ k, (powerlawD (.const (fin x)) (.var 0) (.var 1) (.var 2)).vjp (fun i => fin ((![-1, low, high] : Fin 3 → ℝ) i)) (fun _ => ct) k = nan) ∧
    (0 < low → low < x → x < high → ContDiffAt ℝ ∞ (fun θ : ℝ × ℝ × ℝ => (powerlaw_pdf (fin x) (fin θ.1) (fin θ.2.1) (fin θ.2.2)).toReal) (-1, low, high)) := by
  refine ⟨fun k => powerlawD_nan (l := low) (h := high) _ rfl rfl rfl ?_ _, fun h0 h1 h2 => C115_powerlaw x (-1) low high 0 h0 h1 h2⟩
  match k with
  | 0 => exact Or.inl (.var _ _)
  | 1 => exact Or.inr (Or.inl (.var _ _))
  | 2 => exact Or.inr (Or.inr (.var _ _))

/-- **C127, refuted at the slope -1** (`Powerlaw.log_prob`): the same. -/
theorem C127_powerlaw_log_fails (x low high : ℝ) (ct : F) (k : Fin 3) :
    (plLogProbD (.var 0) (.var 1) (.var 2) (.const (fin x))).vjp (fun i => fin ((![-1, low, high] : Fin 3 → ℝ) i)) (fun _ => ct) k = nan := by
  refine plLogProbD_nan (l := low) (h := high) rfl rfl rfl ?_ _
  match k with
  | 0 => exact Or.inl (.var _ _)
  | 1 => exact Or.inr (Or.inl (.var _ _))
  | 2 => exact Or.inr (Or.inr (.var _ _))

theorem betaD_eq (xx al be sc : Diff α Unit) (fl : F) : betaD xx al be sc fl =
    .sel (fun e => le (xx.f e ()) (sc.f e ()) ∧ ge (xx.f e ()) 0) ((lnBetaD xx al be sc).andThen .exp) (.const fl) := rfl

theorem lnBetaD_f (xx al be sc : Diff α Unit) (e : α → F) : (lnBetaD xx al be sc).f e () =
    (al.f e () - 1) * F.log (xx.f e ()) + (be.f e () - 1) * F.log (sc.f e () - xx.f e ()) - (al.f e () + be.f e () - 1) * F.log (sc.f e ()) -
      betalnF (al.f e ()) (be.f e ()) := rfl

/-- **C127, refuted outside the range** (`betadist`): beyond the maximum, or below 0, the density is the constant floor, but all three entries of the
gradient are NaN: the logarithm of a negative number in the branch that is not taken. -/
theorem C127_beta_outside_fails (x α β s : ℝ) (ct : F) (hx : x < 0 ∨ s < x) (k : Fin 3) :
    (betaD (.const (fin x)) (.var 0) (.var 1) (.var 2)).vjp (fun i => fin ((![α, β, s] : Fin 3 → ℝ) i)) (fun _ => ct) k = nan ∧
    ∀ θ : Fin 3 → ℝ, (x < 0 ∨ θ 2 < x) → betadist (fin x) (fin (θ 0)) (fin (θ 1)) (fin (θ 2)) = fin 0 := by
  constructor
  swap
  · intro θ hθ
    simp only [betadist]
    refine if_neg ?_
    change ¬ (x ≤ θ 2 ∧ 0 ≤ x)
    rintro ⟨h1, h2⟩
    rcases hθ with h | h <;> linarith
  · have hv : (lnBetaD (.const (fin x)) (.var 0) (.var 1) (.var 2)).f (fun i => fin ((![α, β, s] : Fin 3 → ℝ) i)) () = nan := by
      rw [lnBetaD_f]
      change (fin α - 1) * F.log (fin x) + (fin β - 1) * F.log (fin s - fin x) - _ - _ = nan
      rcases hx with h | h
      · have : F.log (fin x) = nan := by simp [F.log, h.ne, h.le, not_lt.2 h.le]
        rw [this]
        simp [sub_eq_add_neg]
      · have h' : s - x < 0 := by linarith
        have : F.log (fin s - fin x) = nan := by simp [F.log, sub_fin, h'.ne, not_lt.2 h'.le]
        rw [this]
        simp [sub_eq_add_neg]
    have hn : NanAt (lnBetaD (.const (fin x)) (.var 0) (.var 1) (.var 2)) (fun i => fin ((![α, β, s] : Fin 3 → ℝ) i)) k := by
      match k with
      | 0 => exact ((NanAt.var _ _).sub_left.mul_left.add_left.sub_left).sub_left
      | 1 => exact ((NanAt.var _ _).sub_left.mul_left.add_right.sub_left).sub_left
      | 2 => exact ((NanAt.var _ _).sub_left.log.mul_right.add_right.sub_left).sub_left
    rw [betaD_eq]
    change (lnBetaD (.const (fin x)) (.var 0) (.var 1) (.var 2)).vjp _ (fun u => _ * F.exp ((lnBetaD (.const (fin x)) (.var 0) (.var 1) (.var 2)).f _ u)) k +
      _ = nan
    rw [hn _ (by rw [hv]; exact mul_nan _), nan_add]

/-- **C127, refuted at the lower end** (`betadist`): at `x = 0` with `alpha > 1` the density is 0 for all such `alpha`, but the entry of the gradient for
`alpha` is NaN, `0 * -inf`. -/
theorem C127_beta_zero_fails (α β s ct : ℝ) (hα : 1 < α) (hβ : 0 < β) (hs : 0 < s) :
    (betaD (.const (fin 0)) (.var 0) (.var 1) (.var 2)).vjp (fun i => fin ((![α, β, s] : Fin 3 → ℝ) i)) (fun _ => fin ct) 0 = nan ∧
    ∀ α', 1 < α' → betadist (fin 0) (fin α') (fin β) (fin s) = fin 0 := by
  have hv : ∀ a', 1 < a' → (fin a' - 1) * F.log (fin 0) + (fin β - 1) * F.log (fin s - fin 0) - (fin a' + fin β - 1) * F.log (fin s) - betalnF (fin a') (fin β) =
      ninf := by
    intro a' ha
    rw [log_zero, one_def, sub_fin, sub_fin, sub_fin, add_fin, sub_fin, sub_zero, log_fin hs, mul_fin, mul_fin, fin_mul_ninf, infOfSign_neg (by linarith)]
    simp only [betalnF]
    rw [if_pos ⟨by linarith, hβ⟩]
    rfl
  have hc : ∀ a' : ℝ, le (fin 0) (fin s) ∧ ge (fin 0) (0 : F) := fun _ => ⟨hs.le, le_refl (0:ℝ)⟩
  constructor
  · have hlift : ∀ c : Unit → F, c () = fin 0 →
        (lnBetaD (.const (fin 0)) (.var 0) (.var 1) (.var 2)).vjp (fun i => fin ((![α, β, s] : Fin 3 → ℝ) i)) c 0 = nan := by
      intro c h0
      have hn : NanAt (Diff.bin .sub (.var (0 : Fin 3)) (.const 1)) (fun i => fin ((![α, β, s] : Fin 3 → ℝ) i)) 0 := (NanAt.var _ _).sub_left
      change ((((Diff.bin .sub (.var (0 : Fin 3)) (.const 1)).vjp (fun i => fin ((![α, β, s] : Fin 3 → ℝ) i)) (fun u => c u * F.log (fin 0)) 0 + _) + _) + _) + _ = nan
      rw [hn _ (by rw [h0, log_zero, fin_mul_ninf]; simp)]
      simp
    have hl : (lnBetaD (.const (fin 0)) (.var 0) (.var 1) (.var 2)).f (fun i => fin ((![α, β, s] : Fin 3 → ℝ) i)) () = ninf := hv α hα
    rw [betaD_eq]
    simp only [Diff.sel, Diff.andThen, Diff.exp]
    rw [hlift _ ?_, nan_add]
    rw [hl]
    split_ifs
    · change fin ct * fin 0 = fin 0
      rw [mul_fin, mul_zero]
    · change fin 0 * fin 0 = fin 0
      rw [mul_fin, mul_zero]
  · intro a' ha
    simp only [betadist]
    rw [hv a' ha]
    exact if_pos (hc 0)

end nan

/-! #### through the likelihood -/

theorem sum_nan_of {ι : Type} [Fintype ι] {f : ι → F} (i : ι) (h : f i = nan) : ∑ i, f i = nan := by
  rw [← Finset.add_sum_erase _ _ (Finset.mem_univ i), h, nan_add]

theorem array_nan {α ι : Type} [Fintype ι] {p : ι → Diff α Unit} {e : α → F} {a : α} {i : ι} {ct : ι → F} (h : ∀ ct : Unit → F, (p i).vjp e ct a = nan) :
    (Diff.array p).vjp e ct a = nan := sum_nan_of i (h _)

theorem hyperD_nan {α : Type} {E N M : ℕ} (fl : Flags) (pe : Fin E → Fin N → Diff α Unit) (inj : Fin M → Diff α Unit) (n Nobs : ℕ) {x : α → F} {a : α}
    (e : Fin E) (i : Fin N) (h : ∀ ct : Unit → F, (pe e i).vjp x ct a = nan) (ct : Unit → F) : (hyperD fl pe inj n Nobs).vjp x ct a = nan := by
  unfold hyperD Diff.andThen
  exact array_nan (i := (Sum.inl (e, i) : Fin E × Fin N ⊕ Fin M)) h

/-- the weight an entry of a weight array stands for -/
def entryWeight (log : Bool) (r : ℝ) : ℝ := if log then Real.exp r else r

theorem encode_entryWeight (log : Bool) (r : ℝ) : encode log (entryWeight log r) = fin r := by
  cases log
  · rfl
  · simp [encode, entryWeight, log_fin (Real.exp_pos r)]

/-- **C127** (from the hyper-parameters to the log likelihood).  When every entry of the two weight arrays is computed by a program whose gradient is its
derivative, so is the gradient of the log likelihood in the hyper-parameters, under the conditions of C125. -/
theorem C127_likelihood {α : Type} [Fintype α] {E N M : ℕ} (fl : Flags) (pe : Fin E → Fin N → Diff α Unit) (inj : Fin M → Diff α Unit)
    (w : (α → ℝ) → Fin E → Fin N → ℝ) (v : (α → ℝ) → Fin M → ℝ) (n Nobs : ℕ) (Tobs : F) (hv : Option F)
    (unscaled : F) (hfl : fl.ok) (hhv : fl.reconstruct_rate = true → hv ≠ none) (hE : 0 < E) (hN : 1 ≤ Nobs) (hMn : M ≤ n) (θ : α → ℝ)
    (cw : ∀ e i, (pe e i).Sound θ fun t => w t e i) (cv : ∀ i, (inj i).Sound θ fun t => v t i)
    (hw : ∀ᶠ t in 𝓝 θ, ∀ e i, 0 ≤ entryWeight fl.log (w t e i)) (hwp : ∀ e, ∃ i, 0 < entryWeight fl.log (w θ e i))
    (hv0 : ∀ᶠ t in 𝓝 θ, ∀ i, 0 ≤ entryWeight fl.log (v t i)) (hvp : ∃ i, 0 < entryWeight fl.log (v θ i))
    (hneff : fl.min_neff_cut = true → (∀ e, (Nobs : ℝ) < kish fun i => entryWeight fl.log (w θ e i)) ∧
      4 * (Nobs : ℝ) * relVar (fun i => entryWeight fl.log (v θ i)) n < 1)
    (hvar : fl.max_variance_cut = true → (Nobs : ℝ) ^ 2 * (relVar (fun i => entryWeight fl.log (v θ i)) n - 1 / n) +
      ∑ e, (1 / (kish fun i => entryWeight fl.log (w θ e i)) - 1 / N) < 1)
    (hr : fl.marginalize_selection = true → 0 < relVar (fun i => entryWeight fl.log (v θ i)) n) :
    ∃ (L : (α → ℝ) → ℝ) (g : α → ℝ),
      (∀ᶠ t in 𝓝 θ, factors (hierarchical_likelihood fl (.single fun e i => fin (w t e i)) (fun i => fin (v t i)) n Nobs
        Tobs hv unscaled none).1 = [fin (L t)]) ∧
      ((hyperD fl pe inj n Nobs).vjp (fun a => fin (θ a)) (fun _ => 1) = fun a => fin (g a)) ∧
      HasFDerivAt L (formOf g) θ := by
  choose gw dw vw using fun e i => (cw e i).grad
  choose gv dv vv using fun i => (cv i).grad
  have ed : ∀ (f : (α → ℝ) → ℝ) (f' : (α → ℝ) →L[ℝ] ℝ), HasFDerivAt f f' θ → EntryDeriv fl.log (fun t => entryWeight fl.log (f t)) f' θ := by
    intro f f' h
    unfold EntryDeriv entryWeight
    cases fl.log
    · exact h
    · simp only [if_true, Real.log_exp]
      exact Or.inl ⟨.of_forall fun t => Real.exp_pos _, h⟩
  obtain ⟨L, g, h1, h2, h3⟩ := C125_gradient fl (fun t e i => entryWeight fl.log (w t e i)) (fun t i => entryWeight fl.log (v t i)) n Nobs Tobs hv unscaled hfl hhv
    hE hN hMn θ (fun e i => formOf (gw e i)) (fun i => formOf (gv i)) (fun e i => ed _ _ (dw e i)) (fun i => ed _ _ (dv i)) hw hwp hv0 hvp hneff hvar hr
  simp only [encode_entryWeight] at h1 h2
  refine ⟨L, fun a => ∑ e, ∑ i, g (.inl (e, i)) * gw e i a + ∑ i, g (.inr i) * gv i a, h1, ?_, h3.congr_fderiv ?_⟩
  · have hf : (Diff.array (Sum.elim (fun ej : Fin E × Fin N => pe ej.1 ej.2) inj)).f (fun a => fin (θ a)) =
        Sum.elim (fun ej : Fin E × Fin N => fin (w θ ej.1 ej.2)) fun i => fin (v θ i) := by
      funext k
      rcases k with ⟨e, i⟩ | i
      · exact (cw e i).at_point ()
      · exact (cv i).at_point ()
    unfold hyperD
    change (Diff.array _).vjp _ ((likelihoodD fl E N M n Nobs).vjp ((Diff.array _).f _) _) = _
    rw [hf]
    unfold likelihoodGrad at h2
    rw [h2]
    funext a
    simp only [Diff.array, Fintype.sum_sum_type, Sum.elim_inl, Sum.elim_inr, vw, vv, Fintype.sum_prod_type, sum_fin, add_fin]
  · ext u
    simp only [_root_.add_apply, _root_.sum_apply, smul_apply, Diff.Sound.formOf_apply, smul_eq_mul, add_mul, Finset.sum_mul, Finset.sum_add_distrib,
      Finset.mul_sum, mul_assoc]
    congr 1
    · symm
      rw [Finset.sum_comm]
      exact Finset.sum_congr rfl fun e _ => Finset.sum_comm
    · rw [Finset.sum_comm]

/-! #### the power law + peak model -/

/-- the density at `(m1, q)` -/
def plpeakDensity (θ : Fin 7 → ℝ) (m1 q : ℝ) : ℝ :=
  (plpeak_primary_ratio_pdf (fin m1) (fin q) (fin (θ 0)) (fin (θ 1)) (fin (θ 2)) (fin (θ 3)) (fin (θ 4)) (fin (θ 5)) (fin (θ 6))).toReal

/-- a sample the gradient is fine at: positive mass, mass ratio in `(0, 1)`, on none of the edges `m1 = mmin`, `m1 = mmax`, `q m1 = mmin` -/
def OffEdge (mmin mmax : ℝ) (m1 q : ℝ) : Prop := 0 < m1 ∧ 0 < q ∧ q < 1 ∧ m1 ≠ mmin ∧ m1 ≠ mmax ∧ q * m1 ≠ mmin

theorem plpeakWeightD_sound {θ : Fin 7 → ℝ} {m1 q prior : ℝ} (hp : 0 < prior) (ha : θ 0 ≠ -1) (hb : θ 1 ≠ -1) (h0 : 0 < θ 2) (h : θ 2 < θ 3) (hs : 0 < θ 5)
    (ho : OffEdge (θ 2) (θ 3) m1 q) : (plpeakWeightD m1 q prior).Sound θ fun t => plpeakDensity t m1 q / prior :=
  (plpeakD_sound (.const m1) (.const q) (.var 0) (.var 1) (.var 2) (.var 3) (.var 4) (.var 5) (.var 6) ho.1 ho.2.1 ho.2.2.1.ne h0 (h0.trans h) h.ne hs ho.2.2.2.1
    ho.2.2.2.2.1 ho.2.2.2.2.2 ha hb).div (.const prior) hp.ne'

theorem powerlaw_some {x a l h : ℝ} (l0 : 0 < l) (hx : x < l ∨ l < h) :
    ∃ v, 0 ≤ v ∧ powerlaw_pdf (fin x) (fin a) (fin l) (fin h) = fin v ∧ (l ≤ x → x ≤ h → l < h → 0 < v) := by
  by_cases hin : l ≤ x ∧ x ≤ h
  · have hlh : l < h := hx.resolve_left (not_lt.2 hin.1)
    have := mul_pos (Real.rpow_pos_of_pos (l0.trans_le hin.1) a) (plNorm_pos (α := a) l0 hlh)
    exact ⟨_, this.le, powerlaw_pdf_in l0 hlh hin.1 hin.2, fun _ _ _ => this⟩
  · refine ⟨0, le_rfl, ?_, fun h1 h2 _ => absurd ⟨h1, h2⟩ hin⟩
    simp only [powerlaw_pdf]
    refine if_pos ?_
    change x < l ∨ h < x
    by_contra hc
    push Not at hc
    exact hin hc

theorem truncnorm_some {x mu sig l h : ℝ} (hs : 0 < sig) (hlh : l < h) :
    ∃ v, 0 ≤ v ∧ truncnorm_pdf (fin x) (fin mu) (fin sig) (fin l) (fin h) = fin v := by
  by_cases hin : l ≤ x ∧ x ≤ h
  · exact ⟨_, (tnPdf_pos hs hlh x).le, truncnorm_pdf_in hs hlh hin.1 hin.2⟩
  · refine ⟨0, le_rfl, ?_⟩
    simp only [truncnorm_pdf]
    refine if_pos ?_
    change h < x ∨ x < l
    by_contra hc
    push Not at hc
    exact hin ⟨hc.2, hc.1⟩

theorem plpeakDensity_sign {t : Fin 7 → ℝ} {m1 q : ℝ} (m0 : 0 < m1) (q1 : q < 1) (h0 : 0 < t 2) (h : t 2 < t 3) (hs : 0 < t 5) (hl0 : 0 ≤ t 6)
    (hl1 : t 6 < 1) : 0 ≤ plpeakDensity t m1 q ∧ (t 2 < q * m1 → m1 < t 3 → 0 < plpeakDensity t m1 q) := by
  have hr : q < t 2 / m1 ∨ t 2 / m1 < 1 := by
    rcases lt_or_ge (t 2 / m1) 1 with h | h
    · exact Or.inr h
    · exact Or.inl (q1.trans_le h)
  obtain ⟨a, a0, ea, pa⟩ := powerlaw_some (x := q) (a := t 1) (div_pos h0 m0) hr
  obtain ⟨b, b0, eb, pb⟩ := powerlaw_some (x := m1) (a := t 0) h0 (Or.inr h)
  obtain ⟨c, c0, ec⟩ := truncnorm_some (x := m1) (mu := t 4) hs h
  have : plpeakDensity t m1 q = a * ((1 - t 6) * b + t 6 * c) := by
    simp only [plpeakDensity, plpeak_primary_ratio_pdf, plpeak_primary_pdf]
    rw [div_fin m0.ne', one_def, ea, eb, ec]
    simp
  rw [this]
  refine ⟨mul_nonneg a0 (add_nonneg (mul_nonneg (by linarith) b0) (mul_nonneg hl0 c0)), fun h1 h2 => ?_⟩
  have k1 : t 2 / m1 < q := by rw [div_lt_iff₀ m0]; exact h1
  have k2 : t 2 < m1 := by nlinarith
  exact mul_pos (pa k1.le q1.le (k1.trans q1)) (add_pos_of_pos_of_nonneg (mul_pos (by linarith) (pb k2.le h2.le h)) (mul_nonneg hl0 c0))

theorem plpeakWeightD_nan {θ : Fin 7 → ℝ} {m1 q prior : ℝ} (hm : m1 ≠ 0) (ct : Unit → F) :
    (θ 0 = -1 → (plpeakWeightD m1 q prior).vjp (fun i => fin (θ i)) ct 0 = nan) ∧
    (θ 1 = -1 → (plpeakWeightD m1 q prior).vjp (fun i => fin (θ i)) ct 1 = nan) := by
  constructor
  · intro ha
    change (_ + ((_ + (powerlawD (.const (fin m1)) (.var 0) (.var 2) (.var 3)).vjp (fun i => fin (θ i)) _ 0) + _)) + _ = nan
    rw [powerlawD_nan (l := θ 2) (h := θ 3) _ (show (Diff.var (0 : Fin 7)).f (fun i => fin (θ i)) () = fin (-1) from congrArg fin ha) rfl rfl (Or.inl (.var _ _))]
    simp
  · intro hb
    change ((powerlawD (.const (fin q)) (.var 1) (.bin .div (.var 2) (.const (fin m1))) (.const 1)).vjp (fun i => fin (θ i)) _ 1 + _) + _ = nan
    rw [powerlawD_nan (l := θ 2 / m1) (h := 1) _ (show (Diff.var (1 : Fin 7)).f (fun i => fin (θ i)) () = fin (-1) from congrArg fin hb) (div_fin hm) rfl (Or.inl (.var _ _))]
    simp

/-- **C127** (`plpeak_primary_ratio_pdf` under `hierarchical_likelihood`).  For every catalogue and injection set none of whose points lies on an edge of the
mass model, and slopes other than -1, the gradient of the log likelihood in the seven hyper-parameters is finite and is its derivative, where no cut fires.
Samples and injections below `mmin` or above `mmax` are allowed.  Missing: a slope of -1, see `C127_plpeak_fails`. -/
theorem C127_plpeak_partial {E N M : ℕ} (fl : Flags) (hlog : fl.log = false) (m1 q prior : Fin E → Fin N → ℝ) (im1 iq iprior : Fin M → ℝ) (n Nobs : ℕ)
    (Tobs : F) (hv : Option F) (unscaled : F) (hfl : fl.ok) (hhv : fl.reconstruct_rate = true → hv ≠ none) (hE : 0 < E) (hN : 1 ≤ Nobs) (hMn : M ≤ n)
    (θ : Fin 7 → ℝ) (ha : θ 0 ≠ -1) (hb : θ 1 ≠ -1) (h0 : 0 < θ 2) (h : θ 2 < θ 3) (hs : 0 < θ 5) (hl0 : 0 < θ 6) (hl1 : θ 6 < 1)
    (ho : ∀ e i, OffEdge (θ 2) (θ 3) (m1 e i) (q e i)) (hp : ∀ e i, 0 < prior e i) (io : ∀ i, OffEdge (θ 2) (θ 3) (im1 i) (iq i)) (ip : ∀ i, 0 < iprior i)
    (hin : ∀ e, ∃ i, θ 2 < q e i * m1 e i ∧ m1 e i < θ 3) (iin : ∃ i, θ 2 < iq i * im1 i ∧ im1 i < θ 3) :
    let w := fun t e i => plpeakDensity t (m1 e i) (q e i) / prior e i
    let v := fun t i => plpeakDensity t (im1 i) (iq i) / iprior i
    (fl.min_neff_cut = true → (∀ e, (Nobs : ℝ) < kish (w θ e)) ∧ 4 * (Nobs : ℝ) * relVar (v θ) n < 1) →
    (fl.max_variance_cut = true → (Nobs : ℝ) ^ 2 * (relVar (v θ) n - 1 / n) + ∑ e, (1 / kish (w θ e) - 1 / N) < 1) →
    (fl.marginalize_selection = true → 0 < relVar (v θ) n) →
    ∃ (L : (Fin 7 → ℝ) → ℝ) (g : Fin 7 → ℝ),
      (∀ᶠ t in 𝓝 θ, factors (hierarchical_likelihood fl (.single fun e i => fin (w t e i)) (fun i => fin (v t i)) n Nobs Tobs hv unscaled none).1 =
        [fin (L t)]) ∧
      ((hyperD fl (fun e i => plpeakWeightD (m1 e i) (q e i) (prior e i)) (fun i => plpeakWeightD (im1 i) (iq i) (iprior i)) n Nobs).vjp
        (fun a => fin (θ a)) (fun _ => 1) = fun a => fin (g a)) ∧
      HasFDerivAt L (formOf g) θ := by
  intro w v c1 c2 c3
  have hwt : entryWeight fl.log = id := by funext r; simp [entryWeight, hlog]
  have hpos : ∀ᶠ t in 𝓝 θ, 0 < t 2 ∧ t 2 < t 3 ∧ 0 < t 5 ∧ 0 < t 6 ∧ t 6 < 1 := by
    have hc : ∀ k : Fin 7, ContinuousAt (fun t : Fin 7 → ℝ => t k) θ := fun k => continuousAt_apply k θ
    filter_upwards [(hc 2).eventually (lt_mem_nhds h0), (hc 2).eventually_lt (hc 3) h, (hc 5).eventually (lt_mem_nhds hs),
      (hc 6).eventually (lt_mem_nhds hl0), (hc 6).eventually (gt_mem_nhds hl1)] with t h1 h2 h3 h4 h5
    exact ⟨h1, h2, h3, h4, h5⟩
  refine C127_likelihood fl _ _ w v n Nobs Tobs hv unscaled hfl hhv hE hN hMn θ (fun e i => plpeakWeightD_sound (hp e i) ha hb h0 h hs (ho e i))
    (fun i => plpeakWeightD_sound (ip i) ha hb h0 h hs (io i)) ?_ ?_ ?_ ?_ ?_ ?_ ?_ <;> simp only [hwt, id]
  · filter_upwards [hpos] with t ht e i
    exact div_nonneg (plpeakDensity_sign (ho e i).1 (ho e i).2.2.1 ht.1 ht.2.1 ht.2.2.1 ht.2.2.2.1.le ht.2.2.2.2).1 (hp e i).le
  · intro e
    obtain ⟨i, h1, h2⟩ := hin e
    exact ⟨i, div_pos ((plpeakDensity_sign (ho e i).1 (ho e i).2.2.1 h0 h hs hl0.le hl1).2 h1 h2) (hp e i)⟩
  · filter_upwards [hpos] with t ht i
    exact div_nonneg (plpeakDensity_sign (io i).1 (io i).2.2.1 ht.1 ht.2.1 ht.2.2.1 ht.2.2.2.1.le ht.2.2.2.2).1 (ip i).le
  · obtain ⟨i, h1, h2⟩ := iin
    exact ⟨i, div_pos ((plpeakDensity_sign (io i).1 (io i).2.2.1 h0 h hs hl0.le hl1).2 h1 h2) (ip i)⟩
  · exact c1
  · exact c2
  · exact c3

theorem plpeakDensity_deriv {θ : Fin 7 → ℝ} {m1 q : ℝ} (h0 : 0 < θ 2) (h : θ 2 < θ 3) (hs : 0 < θ 5) (ho : OffEdge (θ 2) (θ 3) m1 q) :
    DifferentiableAt ℝ (fun t => plpeakDensity t m1 q) θ := by
  obtain ⟨m0, q0, q1, e1, e2, e3⟩ := ho
  have hc : ∀ k : Fin 7, ContinuousAt (fun t : Fin 7 → ℝ => t k) θ := fun k => continuousAt_apply k θ
  by_cases hin : θ 2 < q * m1 ∧ m1 < θ 3
  · have := C115_plpeak m1 q (θ 0) (θ 1) (θ 2) (θ 3) (θ 4) (θ 5) (θ 6) h0 hin.2 hin.1 q1 m0 hs
    have e : (![θ 0, θ 1, θ 2, θ 3, θ 4, θ 5, θ 6] : Fin 7 → ℝ) = θ := by
      funext k
      fin_cases k <;> rfl
    rw [e] at this
    exact this.differentiableAt (by simp)
  · have hz : ∀ᶠ t in 𝓝 θ, plpeakDensity t m1 q = 0 := by
      have hpos : ∀ᶠ t in 𝓝 θ, 0 < t 2 ∧ t 2 < t 3 ∧ 0 < t 5 := by
        filter_upwards [(hc 2).eventually (lt_mem_nhds h0), (hc 2).eventually_lt (hc 3) h, (hc 5).eventually (lt_mem_nhds hs)] with t h1 h2 h3
        exact ⟨h1, h2, h3⟩
      have key : ∀ t : Fin 7 → ℝ, (0 < t 2 ∧ t 2 < t 3 ∧ 0 < t 5) → (q * m1 < t 2 ∨ t 3 < m1) → plpeakDensity t m1 q = 0 := by
        rintro t ⟨h1, h2, h3⟩ h4
        have hr : q < t 2 / m1 ∨ t 2 / m1 < 1 := by
          rcases lt_or_ge (t 2 / m1) 1 with h | h
          · exact Or.inr h
          · exact Or.inl (q1.trans_le h)
        obtain ⟨a, _, ea, _⟩ := powerlaw_some (x := q) (a := t 1) (div_pos h1 m0) hr
        obtain ⟨b, _, eb, _⟩ := powerlaw_some (x := m1) (a := t 0) h1 (Or.inr h2)
        obtain ⟨c, _, ec⟩ := truncnorm_some (x := m1) (mu := t 4) h3 h2
        have hv : plpeakDensity t m1 q = a * ((1 - t 6) * b + t 6 * c) := by
          simp only [plpeakDensity, plpeak_primary_ratio_pdf, plpeak_primary_pdf]
          rw [div_fin m0.ne', one_def, ea, eb, ec]
          simp
        rcases h4 with h4 | h4
        · have : powerlaw_pdf (fin q) (fin (t 1)) (fin (t 2 / m1)) (fin 1) = fin 0 := by
            simp only [powerlaw_pdf]
            refine if_pos (Or.inl ?_)
            change q < t 2 / m1
            rw [lt_div_iff₀ m0]
            exact h4
          rw [this, fin.injEq] at ea
          rw [hv, ← ea, zero_mul]
        · have hb : powerlaw_pdf (fin m1) (fin (t 0)) (fin (t 2)) (fin (t 3)) = fin 0 := by
            simp only [powerlaw_pdf]
            exact if_pos (Or.inr h4)
          have hcz : truncnorm_pdf (fin m1) (fin (t 4)) (fin (t 5)) (fin (t 2)) (fin (t 3)) = fin 0 := by
            simp only [truncnorm_pdf]
            exact if_pos (Or.inl h4)
          rw [hb, fin.injEq] at eb
          rw [hcz, fin.injEq] at ec
          rw [hv, ← eb, ← ec]
          ring
      by_cases h1 : q * m1 < θ 2
      · filter_upwards [hpos, (hc 2).eventually (lt_mem_nhds h1)] with t k1 k2
        exact key t k1 (Or.inl k2)
      · have h2 : θ 3 < m1 := by
          rcases lt_trichotomy m1 (θ 3) with h' | h' | h'
          · exact absurd ⟨lt_of_le_of_ne (not_lt.1 h1) (Ne.symm e3), h'⟩ hin
          · exact absurd h' e2
          · exact h'
        filter_upwards [hpos, (hc 3).eventually (gt_mem_nhds h2)] with t k1 k2
        exact key t k1 (Or.inr k2)
    exact (differentiableAt_const (0:ℝ)).congr_of_eventuallyEq hz

/-- **C127, refuted at a slope of -1**: for every catalogue and injection set as in `C127_plpeak_partial` the log likelihood is differentiable in the
hyper-parameters at any slopes, but the gradient automatic differentiation returns is NaN in `alpha` at `alpha = -1`, and in `beta` at `beta = -1`. -/
theorem C127_plpeak_fails {E N M : ℕ} (fl : Flags) (hlog : fl.log = false) (m1 q prior : Fin E → Fin N → ℝ) (im1 iq iprior : Fin M → ℝ) (n Nobs : ℕ)
    (Tobs : F) (hv : Option F) (unscaled : F) (hfl : fl.ok) (hhv : fl.reconstruct_rate = true → hv ≠ none) (hE : 0 < E) (hN : 1 ≤ Nobs) (hMn : M ≤ n)
    (θ : Fin 7 → ℝ) (h0 : 0 < θ 2) (h : θ 2 < θ 3) (hs : 0 < θ 5) (hl0 : 0 < θ 6) (hl1 : θ 6 < 1)
    (ho : ∀ e i, OffEdge (θ 2) (θ 3) (m1 e i) (q e i)) (hp : ∀ e i, 0 < prior e i) (io : ∀ i, OffEdge (θ 2) (θ 3) (im1 i) (iq i)) (ip : ∀ i, 0 < iprior i)
    (hin : ∀ e, ∃ i, θ 2 < q e i * m1 e i ∧ m1 e i < θ 3) (iin : ∃ i, θ 2 < iq i * im1 i ∧ im1 i < θ 3) :
    let w := fun t e i => plpeakDensity t (m1 e i) (q e i) / prior e i
    let v := fun t i => plpeakDensity t (im1 i) (iq i) / iprior i
    let grad := (hyperD fl (fun e i => plpeakWeightD (m1 e i) (q e i) (prior e i)) (fun i => plpeakWeightD (im1 i) (iq i) (iprior i)) n Nobs).vjp
      (fun a => fin (θ a)) fun _ => 1
    (fl.min_neff_cut = true → (∀ e, (Nobs : ℝ) < kish (w θ e)) ∧ 4 * (Nobs : ℝ) * relVar (v θ) n < 1) →
    (fl.max_variance_cut = true → (Nobs : ℝ) ^ 2 * (relVar (v θ) n - 1 / n) + ∑ e, (1 / kish (w θ e) - 1 / N) < 1) →
    (fl.marginalize_selection = true → 0 < relVar (v θ) n) →
    (∃ L : (Fin 7 → ℝ) → ℝ, (∀ᶠ t in 𝓝 θ, factors (hierarchical_likelihood fl (.single fun e i => fin (w t e i)) (fun i => fin (v t i)) n Nobs Tobs hv
      unscaled none).1 = [fin (L t)]) ∧ DifferentiableAt ℝ L θ) ∧
    (θ 0 = -1 → grad 0 = nan) ∧ (θ 1 = -1 → grad 1 = nan) := by
  intro w v grad c1 c2 c3
  have hpos : ∀ᶠ t in 𝓝 θ, 0 < t 2 ∧ t 2 < t 3 ∧ 0 < t 5 ∧ 0 < t 6 ∧ t 6 < 1 := by
    have hc : ∀ k : Fin 7, ContinuousAt (fun t : Fin 7 → ℝ => t k) θ := fun k => continuousAt_apply k θ
    filter_upwards [(hc 2).eventually (lt_mem_nhds h0), (hc 2).eventually_lt (hc 3) h, (hc 5).eventually (lt_mem_nhds hs),
      (hc 6).eventually (lt_mem_nhds hl0), (hc 6).eventually (gt_mem_nhds hl1)] with t h1 h2 h3 h4 h5
    exact ⟨h1, h2, h3, h4, h5⟩
  obtain ⟨i, h1, h2⟩ := hin ⟨0, hE⟩
  have hm : m1 ⟨0, hE⟩ i ≠ 0 := (ho _ i).1.ne'
  refine ⟨?_, fun h => ?_, fun h => ?_⟩
  · have dw : ∀ e i, DifferentiableAt ℝ (fun t => w t e i) θ := fun e i => by
      simpa only [w, div_eq_mul_inv] using (plpeakDensity_deriv h0 h hs (ho e i)).mul_const (prior e i)⁻¹
    have dv : ∀ i, DifferentiableAt ℝ (fun t => v t i) θ := fun i => by
      simpa only [v, div_eq_mul_inv] using (plpeakDensity_deriv h0 h hs (io i)).mul_const (iprior i)⁻¹
    obtain ⟨L, g, k1, _, k3⟩ := C125_gradient fl w v n Nobs Tobs hv unscaled hfl hhv hE hN hMn θ (fun e i => fderiv ℝ (fun t => w t e i) θ)
      (fun i => fderiv ℝ (fun t => v t i) θ)
      (fun e i => by simpa [EntryDeriv, hlog] using (dw e i).hasFDerivAt) (fun i => by simpa [EntryDeriv, hlog] using (dv i).hasFDerivAt)
      (by filter_upwards [hpos] with t ht e i
          exact div_nonneg (plpeakDensity_sign (ho e i).1 (ho e i).2.2.1 ht.1 ht.2.1 ht.2.2.1 ht.2.2.2.1.le ht.2.2.2.2).1 (hp e i).le)
      (fun e => by
        obtain ⟨i, h1, h2⟩ := hin e
        exact ⟨i, div_pos ((plpeakDensity_sign (ho e i).1 (ho e i).2.2.1 h0 h hs hl0.le hl1).2 h1 h2) (hp e i)⟩)
      (by filter_upwards [hpos] with t ht i
          exact div_nonneg (plpeakDensity_sign (io i).1 (io i).2.2.1 ht.1 ht.2.1 ht.2.2.1 ht.2.2.2.1.le ht.2.2.2.2).1 (ip i).le)
      (by
        obtain ⟨i, h1, h2⟩ := iin
        exact ⟨i, div_pos ((plpeakDensity_sign (io i).1 (io i).2.2.1 h0 h hs hl0.le hl1).2 h1 h2) (ip i)⟩) c1 c2 c3
    simp only [encode, hlog, Bool.false_eq_true, if_false] at k1
    exact ⟨L, k1, k3.differentiableAt⟩
  · exact hyperD_nan fl _ _ n Nobs ⟨0, hE⟩ i (fun ct => (plpeakWeightD_nan hm ct).1 h) _
  · exact hyperD_nan fl _ _ n Nobs ⟨0, hE⟩ i (fun ct => (plpeakWeightD_nan hm ct).2 h) _

/-! ### the hypotheses are met -/

/-- a power law of slope -2 between 5 and 100: inside the range, and below it -/
example : (powerlawD (.const (fin 30)) (.var 0) (.var 1) (.var 2)).Sound ![-2, 5, 100]
      fun θ : Fin 3 → ℝ => (powerlaw_pdf (fin 30) (fin (θ 0)) (fin (θ 1)) (fin (θ 2))).toReal :=
  C127_powerlaw_partial 30 (-2) 5 100 (by norm_num) (by norm_num) (by norm_num) (by norm_num) (by norm_num) (by norm_num)
example : (plLogProbD (.var 0) (.var 1) (.var 2) (.const (fin 3))).Sound ![-2, 5, 100]
      fun θ : Fin 3 → ℝ => (pl_log_prob (fin (θ 0)) (fin (θ 1)) (fin (θ 2)) (fin 3)).toReal :=
  C127_powerlaw_log_partial 3 (-2) 5 100 (by norm_num) (by norm_num) (by norm_num) (by norm_num) (by norm_num) (by norm_num)
example : (truncnormD (.const (fin 30)) (.var 0) (.var 1) (.var 2) (.var 3)).Sound ![35, 4, 5, 100]
      fun θ : Fin 4 → ℝ => (truncnorm_pdf (fin 30) (fin (θ 0)) (fin (θ 1)) (fin (θ 2)) (fin (θ 3))).toReal :=
  C127_truncnorm 30 35 4 5 100 (by norm_num) (by norm_num) (by norm_num) (by norm_num)
example : (betaD (.const (fin (1/5))) (.var 0) (.var 1) (.var 2)).Sound ![2, 5, 1]
      fun θ : Fin 3 → ℝ => (betadist (fin (1/5)) (fin (θ 0)) (fin (θ 1)) (fin (θ 2))).toReal :=
  C127_beta_partial (1/5) 2 5 1 (by norm_num) (by norm_num) (by norm_num) (by norm_num)
/-- a spin magnitude of exactly 0, and one above the maximum -/
example : (betaD (.const (fin 0)) (.var 0) (.var 1) (.var 2)).vjp (fun i => fin ((![2, 5, 1] : Fin 3 → ℝ) i)) (fun _ => fin 1) 0 = nan :=
  (C127_beta_zero_fails 2 5 1 1 (by norm_num) (by norm_num) one_pos).1
example : (betaD (.const (fin (6/5))) (.var 0) (.var 1) (.var 2)).vjp (fun i => fin ((![2, 5, 1] : Fin 3 → ℝ) i)) (fun _ => fin 1) 2 = nan :=
  (C127_beta_outside_fails (6/5) 2 5 1 1 (Or.inr (by norm_num)) 2).1

theorem example_offEdge (k : Fin 2) (q : ℝ) (h1 : 1/2 < q) (h2 : q < 1) : OffEdge 5 100 (if k = 0 then 30 else 4) q := by
  fin_cases k
  · exact ⟨by norm_num, by linarith, h2, by norm_num, by norm_num, by norm_num; intro h; linarith⟩
  · exact ⟨by norm_num, by linarith, h2, by norm_num, by norm_num, by norm_num; intro h; linarith⟩

/-- `C127_plpeak_partial` applied to one event of two samples (one of them below `mmin`) and two injections, with a peak at 35 -/
example : ∃ g : Fin 7 → ℝ,
    (hyperD { min_neff_cut := false } (fun (_ : Fin 1) (i : Fin 2) => plpeakWeightD (if i = 0 then 30 else 4) (4/5) 1)
      (fun i : Fin 2 => plpeakWeightD (if i = 0 then 30 else 4) (9/10) 2) 4 1).vjp (fun a => fin ((![-2, 1, 5, 100, 35, 4, 1/10] : Fin 7 → ℝ) a)) (fun _ => 1) =
      fun a => fin (g a) := by
  obtain ⟨_, g, _, h, _⟩ := C127_plpeak_partial (E := 1) (N := 2) (M := 2) { min_neff_cut := false } rfl (fun _ i => if i = 0 then 30 else 4) (fun _ _ => 4/5)
    (fun _ _ => 1) (fun i => if i = 0 then 30 else 4) (fun _ => 9/10) (fun _ => 2) 4 1 1 (some 1) 1 (by simp [Flags.ok]) (by simp) one_pos le_rfl
    (by norm_num) ![-2, 1, 5, 100, 35, 4, 1/10] (by simp) (by simp; norm_num) (by simp) (by simp; norm_num) (by simp) (by simp) (by simp; norm_num)
    (fun e i => example_offEdge i _ (by norm_num) (by norm_num)) (fun _ _ => one_pos) (fun i => example_offEdge i _ (by norm_num) (by norm_num))
    (fun _ => two_pos) (fun e => ⟨0, by simp; norm_num⟩) ⟨0, by simp; norm_num⟩ (by simp) (by simp) (by simp)
  exact ⟨g, h⟩

/-- `C127_plpeak_fails` applied to the same data with `alpha = -1` -/
example : (hyperD { min_neff_cut := false } (fun (_ : Fin 1) (i : Fin 2) => plpeakWeightD (if i = 0 then 30 else 4) (4/5) 1)
      (fun i : Fin 2 => plpeakWeightD (if i = 0 then 30 else 4) (9/10) 2) 4 1).vjp (fun a => fin ((![-1, 1, 5, 100, 35, 4, 1/10] : Fin 7 → ℝ) a)) (fun _ => 1) 0 =
      nan :=
  (C127_plpeak_fails (E := 1) (N := 2) (M := 2) { min_neff_cut := false } rfl (fun _ i => if i = 0 then 30 else 4) (fun _ _ => 4/5)
    (fun _ _ => 1) (fun i => if i = 0 then 30 else 4) (fun _ => 9/10) (fun _ => 2) 4 1 1 (some 1) 1 (by simp [Flags.ok]) (by simp) one_pos le_rfl
    (by norm_num) ![-1, 1, 5, 100, 35, 4, 1/10] (by simp) (by simp; norm_num) (by simp) (by simp) (by simp; norm_num)
    (fun e i => example_offEdge i _ (by norm_num) (by norm_num)) (fun _ _ => one_pos) (fun i => example_offEdge i _ (by norm_num) (by norm_num))
    (fun _ => two_pos) (fun e => ⟨0, by simp; norm_num⟩) ⟨0, by simp; norm_num⟩ (by simp) (by simp) (by simp)).2.1 (by simp)

end GW
end
