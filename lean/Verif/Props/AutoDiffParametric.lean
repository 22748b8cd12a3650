import Verif.Model.AutoDiffParametric
import Verif.Props.AutoDiffSplines
import Verif.Props.RedshiftModel

/-! # Property C129: the gradients of the parametric models, and of the power-law-plus-peak example -/

open Filter Topology Finset ContDiff
noncomputable section
open Classical
namespace GW
open _root_.F

/-! ### the programs compute the models -/

section values
variable {α : Type} (x xmin dx x0 sgn sc xx al : Diff α Unit) (e : α → F)

theorem bin_add_f (p q : Diff α Unit) : (Diff.bin .add p q).f e () = p.f e () + q.f e () := rfl
theorem smoothD_f : (smoothD dx x xmin).f e () = smooth (dx.f e ()) (x.f e ()) (xmin.f e ()) := by
  simp only [smooth, smoothD, sel_f]
  split_ifs <;> rfl
theorem logisticUnitD_f : (logisticUnitD x x0 sgn sc).f e () = logistic_unit (x.f e ()) (x0.f e ()) (sgn.f e ()) (sc.f e ()) := rfl
theorem logLogisticUnitD_f : (logLogisticUnitD x x0 sgn sc).f e () = log_logistic_unit (x.f e ()) (x0.f e ()) (sgn.f e ()) (sc.f e ()) := by
  simp only [log_logistic_unit, logLogisticUnitD, sel_f]
  split_ifs <;> rfl
theorem powerlawLogitD_f (low high : Option (Diff α Unit)) (lf hf : Diff α Unit) : (powerlawLogitD xx al low high lf hf).f e () =
    powerlaw_logit_pdf (xx.f e ()) (al.f e ()) (low.map fun p => p.f e ()) (high.map fun p => p.f e ()) (lf.f e ()) (hf.f e ()) := by
  cases low <;> cases high <;> rfl
theorem powerlawFalloffD_f (m1 q be mmin mmax fo : Diff α Unit) : (powerlawFalloffD m1 q al be mmin mmax fo).f e () =
    powerlaw_primary_ratio_falloff_pdf (m1.f e ()) (q.f e ()) (al.f e ()) (be.f e ()) (mmin.f e ()) (mmax.f e ()) (fo.f e ()) := by
  simp only [powerlawFalloffD, bin_mul_f, powerlawD_f, powerlawLogitD_f]
  rfl
theorem plpeakSmoothD_f (m1 q be mmin mmax mpp sig lam delta : Diff α Unit) : (plpeakSmoothD m1 q al be mmin mmax mpp sig lam delta).f e () =
    plpeak_primary_ratio_pdf (m1.f e ()) (q.f e ()) (al.f e ()) (be.f e ()) (mmin.f e ()) (mmax.f e ()) (mpp.f e ()) (sig.f e ()) (lam.f e ())
      (some (delta.f e ())) := by
  unfold plpeak_primary_ratio_pdf plpeak_primary_pdf
  change (powerlawD _ _ _ _).f e () * (smoothD _ _ _).f e () * (_ * (powerlawD _ _ _ _).f e () * (smoothD _ _ _).f e () + _ * (truncnormD _ _ _ _ _).f e ()) = _
  rw [powerlawD_f, powerlawD_f, truncnormD_f, smoothD_f, smoothD_f]
  rfl
theorem independentMagnitudeD_f (a1 a2 al1 be1 al2 be2 am1 am2 : Diff α Unit) : (independentMagnitudeD a1 a2 al1 be1 al2 be2 am1 am2).f e () =
    independent_spin_magnitude_beta_dist (a1.f e ()) (a2.f e ()) (al1.f e ()) (be1.f e ()) (al2.f e ()) (be2.f e ()) (am1.f e ()) (am2.f e ()) := by
  change (betaD _ _ _ _).f e () * (betaD _ _ _ _).f e () = _
  rw [betaD_f, betaD_f]
  rfl
theorem iidMagnitudeD_f (a1 a2 be am : Diff α Unit) : (iidMagnitudeD a1 a2 al be am).f e () =
    iid_spin_magnitude (a1.f e ()) (a2.f e ()) (al.f e ()) (be.f e ()) (am.f e ()) := by
  change (betaD _ _ _ _).f e () * (betaD _ _ _ _).f e () = _
  rw [betaD_f, betaD_f]
  rfl
theorem isoalignD_f (ct xi sig : Diff α Unit) : (isoalignD ct xi sig).f e () = mixture_isoalign_spin_tilt (ct.f e ()) (xi.f e ()) (sig.f e ()) := by
  simp only [isoalignD, mixture_isoalign_spin_tilt, bin_add_f, bin_div_f, bin_mul_f, truncnormD_f, sel_f, const_f]
  split_ifs <;> rfl
theorem independentTiltD_f (c1 c2 xi1 xi2 s1 s2 : Diff α Unit) : (independentTiltD c1 c2 xi1 xi2 s1 s2).f e () =
    independent_spin_tilt (c1.f e ()) (c2.f e ()) (xi1.f e ()) (xi2.f e ()) (s1.f e ()) (s2.f e ()) := by
  change (isoalignD _ _ _).f e () * (isoalignD _ _ _).f e () = _
  rw [isoalignD_f, isoalignD_f]
  rfl
theorem iidTiltD_f (c1 c2 xi s : Diff α Unit) : (iidTiltD c1 c2 xi s).f e () = iid_spin_tilt (c1.f e ()) (c2.f e ()) (xi.f e ()) (s.f e ()) := by
  change (isoalignD _ _ _).f e () * (isoalignD _ _ _).f e () = _
  rw [isoalignD_f, isoalignD_f]
  rfl
theorem defaultTiltD_f (c1 c2 xi s : Diff α Unit) : (defaultTiltD c1 c2 xi s).f e () = default_spin_tilt (c1.f e ()) (c2.f e ()) (xi.f e ()) (s.f e ()) := by
  simp only [defaultTiltD, default_spin_tilt, bin_add_f, bin_mul_f, truncnormD_f, sel_f, const_f]
  split_ifs <;> rfl
end values

/-! ### soundness -/

namespace Diff.Sound

variable {α : Type} [Fintype α] {p q : Diff α Unit} {x : α → ℝ} {f : (α → ℝ) → ℝ}

/-- when both branches are sound for one and the same function, the condition does not matter -/
theorem sel_both (hp : p.Sound x f) (hq : q.Sound x f) (c : (α → F) → Prop) : (Diff.sel c p q).Sound x f := by
  have h1 := hp.harmless
  have h2 := hq.harmless
  obtain ⟨v, g, d, w⟩ := hp
  obtain ⟨v', g', d', w'⟩ := hq
  by_cases hc : c fun a => fin (x a)
  · refine ⟨?_, g, d, fun ct => ?_⟩
    · filter_upwards [v, v'] with y e1 e2
      rw [sel_f, e1, e2, ite_self]
    · simp only [Diff.sel, if_pos hc, w, zero_def, h2, add_fin, add_zero]
  · refine ⟨?_, g', d', fun ct => ?_⟩
    · filter_upwards [v, v'] with y e1 e2
      rw [sel_f, e1, e2, ite_self]
    · simp only [Diff.sel, if_neg hc, w', zero_def, h1, add_fin, zero_add]

end Diff.Sound

section models
variable {α : Type} [Fintype α] {dx xmin xx al lo hi mu sig be sc x0 sgn lf hf : Diff α Unit} {x : α → ℝ} {fd fn fx fa fl fh fm fs fb fc f0 fg flf fhf : (α → ℝ) → ℝ}

theorem smoothD_sound (hd : dx.Sound x fd) (hx : xx.Sound x fx) (hn : xmin.Sound x fn) (d0 : 0 < fd x) (h1 : fx x ≠ fn x) (h2 : fx x ≠ fn x + fd x) :
    (smoothD dx xx xmin).Sound x fun y => (smooth (fin (fd y)) (fin (fx y)) (fin (fn y))).toReal := by
  have k1 := hd.div (hx.sub hn) (sub_ne_zero.2 h1)
  have k2 := hd.div ((hx.sub hn).sub hd) (by intro e; exact h2 (by linarith))
  have k3 := ((k1.add k2).exp.add (Diff.Sound.const 1)).pow (Diff.Sound.const (-1)) (by positivity)
  refine (k3.sel_true ?_ _ ?_).read ?_
  · exact ((Diff.Sound.const 0).sel_both (x := x) (f := fun _ => 0) (Diff.Sound.const 0) (fun e => lt (xx.f e ()) (xmin.f e ()))).harmless
  · filter_upwards [hx.val, hd.val, hn.val, hd.continuousAt.eventually (lt_mem_nhds d0)] with y e1 e2 e3 e4
    rw [e1, e2, e3]
    change fx y < fn y + fd y ∨ fn y ≤ fx y
    rcases lt_or_ge (fx y) (fn y + fd y) with h | h
    · exact .inl h
    · exact .inr (by linarith)
  · filter_upwards [hx.val, hd.val, hn.val] with y e1 e2 e3
    change (smoothD dx xx xmin).f (fun a => fin (y a)) () = _
    rw [smoothD_f, e1, e2, e3]

theorem logisticUnitD_sound (hx : xx.Sound x fx) (h0 : x0.Sound x f0) (hg : sgn.Sound x fg) (hc : sc.Sound x fc) :
    (logisticUnitD xx x0 sgn sc).Sound x fun y => 1 / (1 + Real.exp (fg y * fc y * (fx y - f0 y))) := by
  have h := (Diff.Sound.const 1).div ((Diff.Sound.const 1).add ((((Diff.Sound.const (-1)).mul hg).mul hc).neg.mul (hx.sub h0)).exp) (by positivity)
  refine h.congr (.of_forall fun y => ?_)
  congr 3
  ring

theorem logLogisticUnitD_sound (hx : xx.Sound x fx) (h0 : x0.Sound x f0) (hg : sgn.Sound x fg) (hc : sc.Sound x fc) :
    (logLogisticUnitD xx x0 sgn sc).Sound x fun y => Real.log (1 / (1 + Real.exp (fg y * fc y * (fx y - f0 y)))) := by
  refine ((logisticUnitD_sound hx h0 hg hc).log (by positivity)).sel_both ?_ _
  refine ((hg.neg.mul hc).mul (hx.sub h0)).add ((logisticUnitD_sound hx h0 hg.neg hc).log (by positivity)) |>.congr (.of_forall fun y => ?_)
  rw [one_div, one_div, Real.log_inv, Real.log_inv]
  have e : 1 + Real.exp (fg y * fc y * (fx y - f0 y)) = Real.exp (fg y * fc y * (fx y - f0 y)) * (1 + Real.exp (-fg y * fc y * (fx y - f0 y))) := by
    rw [mul_add, mul_one, ← Real.exp_add, show fg y * fc y * (fx y - f0 y) + -fg y * fc y * (fx y - f0 y) = 0 by ring, Real.exp_zero, add_comm]
  rw [e, Real.log_mul (Real.exp_pos _).ne' (by positivity), Real.log_exp]
  ring

theorem powerlawLogitD_sound (hx : xx.Sound x fx) (ha : al.Sound x fa) (hl : lo.Sound x fl) (hh : hi.Sound x fh) (hlf : lf.Sound x flf) (hhf : hf.Sound x fhf)
    (x0 : 0 < fx x) : (powerlawLogitD xx al (some lo) (some hi) lf hf).Sound x fun y =>
      (powerlaw_logit_pdf (fin (fx y)) (fin (fa y)) (some (fin (fl y))) (some (fin (fh y))) (fin (flf y)) (fin (fhf y))).toReal := by
  refine (((hx.pow ha x0).mul (logisticUnitD_sound hx hl (Diff.Sound.const (-1)) hlf)).mul (logisticUnitD_sound hx hh (Diff.Sound.const 1) hhf)).read ?_
  filter_upwards [hx.val, ha.val, hl.val, hh.val, hlf.val, hhf.val] with y e1 e2 e3 e4 e5 e6
  change (powerlawLogitD xx al (some lo) (some hi) lf hf).f (fun a => fin (y a)) () = _
  rw [powerlawLogitD_f, e1, e2, e5, e6]
  simp only [Option.map_some, e3, e4]

theorem em_const (p : Prop) : (∀ᶠ _ in 𝓝 x, p) ∨ ∀ᶠ _ in 𝓝 x, ¬ p := (Classical.em p).imp (fun h => .of_forall fun _ => h) fun h => .of_forall fun _ => h

theorem isoalignD_sound {xi : Diff α Unit} {fi : (α → ℝ) → ℝ} (ct : ℝ) (hi : xi.Sound x fi) (hs : sig.Sound x fs) (s0 : 0 < fs x) :
    (isoalignD (.const (fin ct)) xi sig).Sound x fun y => (mixture_isoalign_spin_tilt (fin ct) (fin (fi y)) (fin (fs y))).toReal := by
  have hcut : ∃ c : ℝ, (Diff.sel (fun e => gt ((Diff.const (fin ct) : Diff α Unit).f e ()) 1 ∨ lt ((Diff.const (fin ct) : Diff α Unit).f e ()) (-1)) (.const 0)
      (.const 1)).Sound x fun _ => c := by
    by_cases h : 1 < ct ∨ ct < -1
    · exact ⟨0, (Diff.Sound.const 0).sel_true (Diff.Sound.const 1).harmless _ (.of_forall fun _ => h)⟩
    · exact ⟨1, (Diff.Sound.const 1).sel_false (Diff.Sound.const 0).harmless _ (.of_forall fun _ => h)⟩
  obtain ⟨c, hc⟩ := hcut
  have ht := truncnormD_sound' (.const ct) (.const 1) hs (.const (-1)) (.const 1) s0 (by norm_num) (em_const (ct < -1 ∨ 1 < ct))
  refine (((hc.mul ((Diff.Sound.const 1).sub hi)).div (Diff.Sound.const 2) two_ne_zero).add (hi.mul ht)).read ?_
  filter_upwards [hi.val, hs.val] with y e1 e2
  change (isoalignD (.const (fin ct)) xi sig).f (fun a => fin (y a)) () = _
  rw [isoalignD_f, e1, e2]
  rfl

theorem defaultTiltD_sound {xi : Diff α Unit} {fi : (α → ℝ) → ℝ} (c1 c2 : ℝ) (hi : xi.Sound x fi) (hs : sig.Sound x fs) (s0 : 0 < fs x) :
    (defaultTiltD (.const (fin c1)) (.const (fin c2)) xi sig).Sound x fun y => (default_spin_tilt (fin c1) (fin c2) (fin (fi y)) (fin (fs y))).toReal := by
  have hiso : ∀ ct : ℝ, ∃ c : ℝ, (Diff.sel (fun e => gt ((Diff.const (fin ct) : Diff α Unit).f e ()) 1 ∨ lt ((Diff.const (fin ct) : Diff α Unit).f e ()) (-1))
      (.const 0) (.const (fin (1/2)))).Sound x fun _ => c := by
    intro ct
    by_cases h : 1 < ct ∨ ct < -1
    · exact ⟨0, (Diff.Sound.const 0).sel_true (Diff.Sound.const (1/2)).harmless _ (.of_forall fun _ => h)⟩
    · exact ⟨1/2, (Diff.Sound.const (1/2)).sel_false (Diff.Sound.const 0).harmless _ (.of_forall fun _ => h)⟩
  obtain ⟨k1, h1⟩ := hiso c1
  obtain ⟨k2, h2⟩ := hiso c2
  have ht := fun ct : ℝ => truncnormD_sound' (.const ct) (.const 1) hs (.const (-1)) (.const 1) s0 (by norm_num) (em_const (ct < -1 ∨ 1 < ct))
  refine (((((Diff.Sound.const 1).sub hi).mul h1).mul h2).add ((hi.mul (ht c1)).mul (ht c2))).read ?_
  filter_upwards [hi.val, hs.val] with y e1 e2
  change (defaultTiltD (.const (fin c1)) (.const (fin c2)) xi sig).f (fun a => fin (y a)) () = _
  rw [defaultTiltD_f, e1, e2]
  rfl

/-! #### the redshift model -/

theorem zprobD_sound {lamb : Diff α Unit} {fl : (α → ℝ) → ℝ} (z dV : ℝ) (hz : -1 < z) (hl : lamb.Sound x fl) :
    (ZModel.probD z dV lamb).Sound x fun y => ZModel.prob z dV (fl y) :=
  (Diff.Sound.const dV).mul ((Diff.Sound.const (1 + z)).pow (hl.sub (Diff.Sound.const 1)) (by linarith))

theorem znormD_sound {lamb : Diff α Unit} {fl : (α → ℝ) → ℝ} (m : ZModel) (hm : m.OK) (hl : lamb.Sound x fl) :
    (m.normalizationD lamb).Sound x fun y => m.normalization (fl y) := by
  refine Diff.Sound.trapzD (f := fun y j => ZModel.prob (m.zs.get j) (m.dV (m.zs.get j)) (fl y)) fun j hj => zprobD_sound _ _ ?_ hl
  exact hm.above.trans_le (linspace_mem hm.overlap hj).1

theorem zcallParD_sound {lamb : Diff α Unit} {fl : (α → ℝ) → ℝ} (m : ZModel) (hm : m.OK) (twoD : Bool) (z : Arr ℝ) (i : ℕ) (hz : -1 < z.get i)
    (hl : lamb.Sound x fl) : (m.callD twoD z lamb i).Sound x fun y => (m.call twoD z (fl y) i).toReal := by
  have h := (zprobD_sound (z.get i) (m.dVdz twoD i) hz hl).div (znormD_sound m hm hl) (ZModel.norm_pos hm _).ne'
  by_cases hc : z.get i ≤ m.zmax
  · refine (h.sel_true (Diff.Sound.const 0).harmless _ (.of_forall fun _ => hc)).congr (.of_forall fun y => ?_)
    rw [ZModel.call, if_pos hc, div_fin (ZModel.norm_pos hm _).ne', toReal_fin]
  · refine ((Diff.Sound.const 0).sel_false h.harmless _ (.of_forall fun _ => hc)).congr (.of_forall fun y => ?_)
    rw [ZModel.call, if_neg hc]
    rfl

theorem zlogProbD_sound {lamb : Diff α Unit} {fl : (α → ℝ) → ℝ} (m : ZModel) (hm : m.OK) (twoD : Bool) (z : Arr ℝ) (i : ℕ) (hz : -1 < z.get i)
    (hv : 0 < m.dVdz twoD i) (hl : lamb.Sound x fl) : (m.logProbD twoD z lamb i).Sound x fun y => (m.logProb twoD z (fl y) i).toReal := by
  have hz' : 0 < 1 + z.get i := by linarith
  have e2 : F.log (1 + fin (z.get i)) = fin (Real.log (1 + z.get i)) := by rw [one_def, add_fin, log_fin hz']
  have h : (Diff.bin .sub (.bin .add (.const (F.log (fin (m.dVdz twoD i)))) (.bin .mul (.bin .sub lamb (.const 1)) (.const (F.log (1 + fin (z.get i))))))
      ((m.normalizationD lamb).andThen .log)).Sound x
      fun y => Real.log (m.dVdz twoD i) + (fl y - 1) * Real.log (1 + z.get i) - Real.log (m.normalization (fl y)) := by
    rw [log_fin hv, e2]
    exact ((Diff.Sound.const _).add ((hl.sub (Diff.Sound.const 1)).mul (Diff.Sound.const _))).sub ((znormD_sound m hm hl).log (ZModel.norm_pos hm _))
  by_cases hc : z.get i ≤ m.zmax
  · refine (h.sel_true (Diff.Sound.const (-BIG)).harmless _ (.of_forall fun _ => hc)).congr (.of_forall fun y => ?_)
    rw [ZModel.logProb, if_pos hc, log_fin hv, e2, log_fin (ZModel.norm_pos hm _), mul_fin, add_fin, sub_fin, toReal_fin]
  · refine ((Diff.Sound.const (-BIG)).sel_false h.harmless _ (.of_forall fun _ => hc)).congr (.of_forall fun y => ?_)
    rw [ZModel.logProb, if_neg hc]
    rfl

end models

/-! ### differentiability, also where a gradient is not returned -/

/-- near `x` the values are numbers, and they are differentiable at `x` -/
def DiffF {α : Type} [Fintype α] (f : (α → ℝ) → F) (x : α → ℝ) : Prop := ∃ g : (α → ℝ) → ℝ, (∀ᶠ y in 𝓝 x, f y = fin (g y)) ∧ DifferentiableAt ℝ g x

namespace DiffF
variable {α : Type} [Fintype α] {u v : (α → ℝ) → F} {x : α → ℝ}

theorem toReal (h : DiffF u x) : DifferentiableAt ℝ (fun y => (u y).toReal) x := by
  obtain ⟨g, e, d⟩ := h
  refine d.congr_of_eventuallyEq ?_
  filter_upwards [e] with y h
  rw [h, toReal_fin]
theorem mul (h : DiffF u x) (k : DiffF v x) : DiffF (fun y => u y * v y) x := by
  obtain ⟨g, e, d⟩ := h
  obtain ⟨g', e', d'⟩ := k
  refine ⟨fun y => g y * g' y, ?_, d.mul d'⟩
  filter_upwards [e, e'] with y h1 h2
  rw [h1, h2, mul_fin]
theorem add (h : DiffF u x) (k : DiffF v x) : DiffF (fun y => u y + v y) x := by
  obtain ⟨g, e, d⟩ := h
  obtain ⟨g', e', d'⟩ := k
  refine ⟨fun y => g y + g' y, ?_, d.add d'⟩
  filter_upwards [e, e'] with y h1 h2
  rw [h1, h2, add_fin]
theorem div_const (h : DiffF u x) {c : ℝ} (hc : c ≠ 0) : DiffF (fun y => u y / fin c) x := by
  obtain ⟨g, e, d⟩ := h
  refine ⟨fun y => g y * c⁻¹, ?_, d.mul_const _⟩
  filter_upwards [e] with y h1
  rw [h1, div_fin hc, div_eq_mul_inv]
theorem of_real {g : (α → ℝ) → ℝ} (h : DifferentiableAt ℝ g x) : DiffF (fun y => fin (g y)) x := ⟨g, .of_forall fun _ => rfl, h⟩
theorem of_sound {p : Diff α Unit} {f : (α → ℝ) → ℝ} (h : p.Sound x f) (e : ∀ᶠ y in 𝓝 x, p.f (fun a => fin (y a)) () = u y) : DiffF u x := by
  obtain ⟨v, g, d, _⟩ := h
  refine ⟨f, ?_, d.differentiableAt⟩
  filter_upwards [v, e] with y h1 h2
  rw [← h2, h1]
theorem powerlaw {r : ℝ} {f l h : (α → ℝ) → ℝ} (hf : ContDiffAt ℝ ∞ f x) (hl : ContDiffAt ℝ ∞ l x) (hh : ContDiffAt ℝ ∞ h x) (h0 : 0 < l x) (h1 : l x < r)
    (h2 : r < h x) : DiffF (fun y => powerlaw_pdf (fin r) (fin (f y)) (fin (l y)) (fin (h y))) x := by
  refine ⟨_, ?_, (powerlaw_smooth r 0 hf hl hh h0 h1 h2).differentiableAt (by simp)⟩
  filter_upwards [hl.continuousAt.eventually (lt_mem_nhds h0), hl.continuousAt.eventually (gt_mem_nhds h1), hh.continuousAt.eventually (lt_mem_nhds h2)]
    with y e0 e1 e2
  obtain ⟨v, _, ev, _⟩ := powerlaw_some (x := r) (a := f y) e0 (Or.inr (e1.trans e2))
  rw [ev, toReal_fin]
theorem ratio {m1 q : ℝ} {f l : (α → ℝ) → ℝ} (hf : ContDiffAt ℝ ∞ f x) (hl : ContDiffAt ℝ ∞ l x) (hm : 0 < m1) (h0 : 0 < l x) (h1 : l x < q * m1) (h2 : q < 1) :
    DiffF (fun y => powerlaw_pdf (fin q) (fin (f y)) (fin (l y) / fin m1) 1) x := by
  have := powerlaw (r := q) (l := fun y => l y / m1) (h := fun _ => 1) hf (hl.div (contDiffAt_const (c := m1)) hm.ne') contDiffAt_const (div_pos h0 hm) ((div_lt_iff₀ hm).2 h1) h2
  simpa only [div_fin hm.ne', one_def] using this

end DiffF

/-! ### the property: single models -/

/-- **C129** (`smooth`): the low-mass taper, at every point other than its two ends, in the width and the minimum. -/
theorem C129_smooth (x dx xmin : ℝ) (hd : 0 < dx) (h1 : x ≠ xmin) (h2 : x ≠ xmin + dx) :
    (smoothD (.var 0) (.const (fin x)) (.var 1)).Sound ![dx, xmin] fun θ : Fin 2 → ℝ => (smooth (fin (θ 0)) (fin x) (fin (θ 1))).toReal :=
  smoothD_sound (.var 0) (.const x) (.var 1) hd h1 h2

/-- **C129** (`log_logistic_unit`): everywhere, in the point, the centre, the sign and the scale; in particular where the `where` changes branch. -/
theorem C129_log_logistic (x x0 sgn sc : ℝ) :
    (logLogisticUnitD (.var 0) (.var 1) (.var 2) (.var 3)).Sound ![x, x0, sgn, sc]
      fun θ : Fin 4 → ℝ => (log_logistic_unit (fin (θ 0)) (fin (θ 1)) (fin (θ 2)) (fin (θ 3))).toReal :=
  (logLogisticUnitD_sound (.var 0) (.var 1) (.var 2) (.var 3)).read (.of_forall fun y => logLogisticUnitD_f ..)

/-- **C129** (`powerlaw_logit_pdf`): at every positive point, for all slopes, bounds and fall-offs. -/
theorem C129_logit (x α low high lf hf : ℝ) (h0 : 0 < x) :
    (powerlawLogitD (.const (fin x)) (.var 0) (some (.var 1)) (some (.var 2)) (.var 3) (.var 4)).Sound ![α, low, high, lf, hf]
      fun θ : Fin 5 → ℝ => (powerlaw_logit_pdf (fin x) (fin (θ 0)) (some (fin (θ 1))) (some (fin (θ 2))) (fin (θ 3)) (fin (θ 4))).toReal :=
  powerlawLogitD_sound (.const x) (.var 0) (.var 1) (.var 2) (.var 3) (.var 4) h0

/-- **C129** (`powerlaw_primary_ratio_falloff_pdf`): at every `(m1, q)` off the edges of the mass-ratio range, in the two slopes, the two masses and the
fall-off, the slope of the mass ratio other than -1 (the slope of the mass is free).  Missing: that slope -1, see `C129_falloff_fails`. -/
theorem C129_falloff_partial (m1 q α β mmin mmax fo : ℝ) (hm : 0 < m1) (hq : 0 < q) (hq1 : q ≠ 1) (h0 : 0 < mmin) (h1 : m1 ≠ mmin) (h2 : q * m1 ≠ mmin)
    (hβ : β ≠ -1) :
    (powerlawFalloffD (.const (fin m1)) (.const (fin q)) (.var 0) (.var 1) (.var 2) (.var 3) (.var 4)).Sound ![α, β, mmin, mmax, fo]
      fun θ : Fin 5 → ℝ => (powerlaw_primary_ratio_falloff_pdf (fin m1) (fin q) (fin (θ 0)) (fin (θ 1)) (fin (θ 2)) (fin (θ 3)) (fin (θ 4))).toReal := by
  have hr := (Diff.Sound.var (x := ![α, β, mmin, mmax, fo]) (2 : Fin 5)).div (.const m1) hm.ne'
  have k := powerlawD_sound (.const q) (.var 1) hr (.const 1) 0 hq (div_pos h0 hm) one_pos (by rw [Ne, div_eq_one_iff_eq hm.ne']; exact fun e => h1 e.symm)
    (by rw [Ne, eq_div_iff hm.ne']; exact h2) hq1 hβ
  refine (k.mul (powerlawLogitD_sound (.const m1) (.var 0) (.var 2) (.var 3) (.var 4) (.const 4) hm)).read (.of_forall fun y => ?_)
  exact powerlawFalloffD_f ..

/-- **C129, refuted at the mass-ratio slope -1** (`powerlaw_primary_ratio_falloff_pdf`): the density is differentiable in the five hyper-parameters there, but
the entry of the gradient for that slope is NaN. -/
theorem C129_falloff_fails (m1 q α mmin mmax fo : ℝ) (ct : F) (hm : 0 < m1) :
    (powerlawFalloffD (.const (fin m1)) (.const (fin q)) (.var 0) (.var 1) (.var 2) (.var 3) (.var 4)).vjp
      (fun i => fin ((![α, -1, mmin, mmax, fo] : Fin 5 → ℝ) i)) (fun _ => ct) 1 = nan ∧
    (0 < mmin → mmin < q * m1 → q < 1 → DifferentiableAt ℝ
      (fun θ : Fin 5 → ℝ => (powerlaw_primary_ratio_falloff_pdf (fin m1) (fin q) (fin (θ 0)) (fin (θ 1)) (fin (θ 2)) (fin (θ 3)) (fin (θ 4))).toReal)
      ![α, -1, mmin, mmax, fo]) := by
  constructor
  · change (powerlawD (.const (fin q)) (.var 1) (.bin .div (.var 2) (.const (fin m1))) (.const 1)).vjp _ _ 1 + _ = nan
    rw [powerlawD_nan (l := mmin / m1) (h := 1) _
      (show (Diff.var (1 : Fin 5)).f (fun i => fin ((![α, -1, mmin, mmax, fo] : Fin 5 → ℝ) i)) () = fin (-1) from rfl) (div_fin hm.ne') rfl (Or.inl (.var _ _)), nan_add]
  · intro h0 h1 h2
    exact ((DiffF.ratio (x := ![α, -1, mmin, mmax, fo]) (f := fun y => y 1) (l := fun y => y 2) (by fun_prop) (by fun_prop) hm h0 h1 h2).mul
      (.of_sound (powerlawLogitD_sound (.const m1) (.var 0) (.var 2) (.var 3) (.var 4) (.const 4) hm) (.of_forall fun y => powerlawLogitD_f ..))).toReal

/-- **C129** (`plpeak_primary_ratio_pdf` with a taper): off the edges of the mass model and of the two tapers, in all eight hyper-parameters, for slopes
other than -1.  Missing: the slope -1, see `C129_plpeak_smooth_fails`. -/
theorem C129_plpeak_smooth_partial (m1 q α β mmin mmax mpp sig lam δ : ℝ) (ho : OffEdge mmin mmax m1 q) (h0 : 0 < mmin) (h : mmin < mmax) (hs : 0 < sig)
    (hδ : 0 < δ) (h1 : m1 ≠ mmin + δ) (h2 : q * m1 ≠ mmin + δ) (hα : α ≠ -1) (hβ : β ≠ -1) :
    (plpeakSmoothD (.const (fin m1)) (.const (fin q)) (.var 0) (.var 1) (.var 2) (.var 3) (.var 4) (.var 5) (.var 6) (.var 7)).Sound
      ![α, β, mmin, mmax, mpp, sig, lam, δ]
      fun θ : Fin 8 → ℝ => (plpeak_primary_ratio_pdf (fin m1) (fin q) (fin (θ 0)) (fin (θ 1)) (fin (θ 2)) (fin (θ 3)) (fin (θ 4)) (fin (θ 5)) (fin (θ 6))
        (some (fin (θ 7)))).toReal := by
  obtain ⟨m0, q0, q1, e1, e2, e3⟩ := ho
  have hr := (Diff.Sound.var (x := ![α, β, mmin, mmax, mpp, sig, lam, δ]) (2 : Fin 8)).div (.const m1) m0.ne'
  have k1 := powerlawD_sound (.const q) (.var 1) hr (.const 1) 0 q0 (div_pos h0 m0) one_pos (by rw [Ne, div_eq_one_iff_eq m0.ne']; exact fun e => e1 e.symm)
    (by rw [Ne, eq_div_iff m0.ne']; exact e3) q1.ne hβ
  have k2 := powerlawD_sound (x := ![α, β, mmin, mmax, mpp, sig, lam, δ]) (.const m1) (.var 0) (.var 2) (.var 3) 0 m0 h0 (h0.trans h) h.ne e1 e2 hα
  have k3 := truncnormD_sound (x := ![α, β, mmin, mmax, mpp, sig, lam, δ]) (.const m1) (.var 4) (.var 5) (.var 2) (.var 3) hs h.ne e1 e2
  have k4 := smoothD_sound (x := ![α, β, mmin, mmax, mpp, sig, lam, δ]) (.var 7) (.const m1) (.var 2) hδ e1 h1
  have k5 := smoothD_sound (x := ![α, β, mmin, mmax, mpp, sig, lam, δ]) (.var 7) ((Diff.Sound.const q).mul (.const m1)) (.var 2) hδ e3 h2
  refine ((k1.mul k5).mul (((((Diff.Sound.const 1).sub (.var 6)).mul k2).mul k4).add ((Diff.Sound.var 6).mul k3))).read (.of_forall fun y => ?_)
  exact plpeakSmoothD_f ..

/-- **C129, refuted at a slope of -1** (`plpeak_primary_ratio_pdf` with a taper): inside the mass range and off the ends of the tapers the density is
differentiable in all eight hyper-parameters for all slopes, but the entry of the gradient for a slope of -1 is NaN. -/
theorem C129_plpeak_smooth_fails (m1 q : ℝ) (θ : Fin 8 → ℝ) (hm : 0 < m1) (ct : F) :
    let grad := (plpeakSmoothD (.const (fin m1)) (.const (fin q)) (.var 0) (.var 1) (.var 2) (.var 3) (.var 4) (.var 5) (.var 6) (.var 7)).vjp
      (fun i => fin (θ i)) fun _ => ct
    (θ 0 = -1 → grad 0 = nan) ∧ (θ 1 = -1 → grad 1 = nan) ∧
    (0 < θ 2 → θ 2 < q * m1 → q < 1 → m1 < θ 3 → 0 < θ 5 → 0 < θ 7 → m1 ≠ θ 2 + θ 7 → q * m1 ≠ θ 2 + θ 7 → DifferentiableAt ℝ
      (fun θ : Fin 8 → ℝ => (plpeak_primary_ratio_pdf (fin m1) (fin q) (fin (θ 0)) (fin (θ 1)) (fin (θ 2)) (fin (θ 3)) (fin (θ 4)) (fin (θ 5)) (fin (θ 6))
        (some (fin (θ 7)))).toReal) θ) := by
  refine ⟨fun h => ?_, fun h => ?_, fun h0 h1 h2 h3 h4 h5 h6 h7 => ?_⟩
  · change _ + (((_ + (powerlawD (.const (fin m1)) (.var 0) (.var 2) (.var 3)).vjp (fun i => fin (θ i)) _ 0) + _) + _) = nan
    rw [powerlawD_nan (l := θ 2) (h := θ 3) _ (show (Diff.var (0 : Fin 8)).f (fun i => fin (θ i)) () = fin (-1) from congrArg fin h) rfl rfl (Or.inl (.var _ _))]
    simp
  · change ((powerlawD (.const (fin q)) (.var 1) (.bin .div (.var 2) (.const (fin m1))) (.const 1)).vjp (fun i => fin (θ i)) _ 1 + _) + _ = nan
    rw [powerlawD_nan (l := θ 2 / m1) (h := 1) _ (show (Diff.var (1 : Fin 8)).f (fun i => fin (θ i)) () = fin (-1) from congrArg fin h) (div_fin hm.ne') rfl (Or.inl (.var _ _))]
    simp
  · have hlt : θ 2 < m1 := by nlinarith
    have k1 := DiffF.ratio (x := θ) (f := fun y => y 1) (l := fun y => y 2) (by fun_prop) (by fun_prop) hm h0 h1 h2
    have k2 := DiffF.powerlaw (x := θ) (r := m1) (f := fun y => y 0) (l := fun y => y 2) (h := fun y => y 3) (by fun_prop) (by fun_prop) (by fun_prop) h0 hlt h3
    have k3 := DiffF.of_sound (truncnormD_sound (x := θ) (.const m1) (.var 4) (.var 5) (.var 2) (.var 3) h4 (hlt.trans h3).ne hlt.ne' h3.ne)
      (.of_forall fun y => truncnormD_f ..)
    have k4 := DiffF.of_sound (smoothD_sound (x := θ) (.var 7) (.const m1) (.var 2) h5 hlt.ne' h6) (.of_forall fun y => smoothD_f ..)
    have k5 := DiffF.of_sound (smoothD_sound (x := θ) (.var 7) ((Diff.Sound.const q).mul (.const m1)) (.var 2) h5 h1.ne' h7) (.of_forall fun y => smoothD_f ..)
    have k6 := DiffF.of_real (x := θ) (g := fun y => y 6) (by fun_prop)
    have k7 := DiffF.of_real (x := θ) (g := fun y => 1 - y 6) (by fun_prop)
    exact ((k1.mul k5).mul (((k7.mul k2).mul k4).add (k6.mul k3))).toReal

/-- **C129** (the tilt models): for all tilts, the ends included, in the mixing fractions and the widths. -/
theorem C129_tilt (ct1 ct2 xi1 xi2 s1 s2 : ℝ) (h1 : 0 < s1) (h2 : 0 < s2) :
    (isoalignD (.const (fin ct1)) (.var 0) (.var 1)).Sound ![xi1, s1]
      (fun θ : Fin 2 → ℝ => (mixture_isoalign_spin_tilt (fin ct1) (fin (θ 0)) (fin (θ 1))).toReal) ∧
    (iidTiltD (.const (fin ct1)) (.const (fin ct2)) (.var 0) (.var 1)).Sound ![xi1, s1]
      (fun θ : Fin 2 → ℝ => (iid_spin_tilt (fin ct1) (fin ct2) (fin (θ 0)) (fin (θ 1))).toReal) ∧
    (independentTiltD (.const (fin ct1)) (.const (fin ct2)) (.var 0) (.var 1) (.var 2) (.var 3)).Sound ![xi1, xi2, s1, s2]
      (fun θ : Fin 4 → ℝ => (independent_spin_tilt (fin ct1) (fin ct2) (fin (θ 0)) (fin (θ 1)) (fin (θ 2)) (fin (θ 3))).toReal) ∧
    (defaultTiltD (.const (fin ct1)) (.const (fin ct2)) (.var 0) (.var 1)).Sound ![xi1, s1]
      (fun θ : Fin 2 → ℝ => (default_spin_tilt (fin ct1) (fin ct2) (fin (θ 0)) (fin (θ 1))).toReal) := by
  refine ⟨isoalignD_sound ct1 (.var 0) (.var 1) h1, ?_, ?_, defaultTiltD_sound ct1 ct2 (.var 0) (.var 1) h1⟩
  · exact ((isoalignD_sound ct1 (.var 0) (.var 1) h1).mul (isoalignD_sound ct2 (.var 0) (.var 1) h1)).read (.of_forall fun y => iidTiltD_f ..)
  · exact ((isoalignD_sound ct1 (.var 0) (.var 2) h1).mul (isoalignD_sound ct2 (.var 1) (.var 3) h2)).read (.of_forall fun y => independentTiltD_f ..)

/-- **C129** (the spin-magnitude models): for magnitudes strictly between 0 and the maxima, in the shapes and the maxima.  Missing: the ends and the outside,
see `C127_beta_zero_fails` and `C127_beta_outside_fails`. -/
theorem C129_magnitude_partial (a1 a2 α1 β1 α2 β2 m1 m2 : ℝ) (h1 : 0 < α1) (h2 : 0 < β1) (h3 : 0 < α2) (h4 : 0 < β2) (ha1 : 0 < a1) (ha2 : 0 < a2)
    (hm1 : a1 < m1) (hm2 : a2 < m2) :
    (independentMagnitudeD (.const (fin a1)) (.const (fin a2)) (.var 0) (.var 1) (.var 2) (.var 3) (.var 4) (.var 5)).Sound ![α1, β1, α2, β2, m1, m2]
      (fun θ : Fin 6 → ℝ => (independent_spin_magnitude_beta_dist (fin a1) (fin a2) (fin (θ 0)) (fin (θ 1)) (fin (θ 2)) (fin (θ 3)) (fin (θ 4))
        (fin (θ 5))).toReal) ∧
    (a2 < m1 → (iidMagnitudeD (.const (fin a1)) (.const (fin a2)) (.var 0) (.var 1) (.var 2)).Sound ![α1, β1, m1]
      (fun θ : Fin 3 → ℝ => (iid_spin_magnitude (fin a1) (fin a2) (fin (θ 0)) (fin (θ 1)) (fin (θ 2))).toReal)) := by
  refine ⟨?_, fun hm => ?_⟩
  · exact ((betaD_sound (.const a1) (.var 0) (.var 1) (.var 4) 0 h1 h2 ha1 hm1).mul (betaD_sound (.const a2) (.var 2) (.var 3) (.var 5) 0 h3 h4 ha2 hm2)).read
      (.of_forall fun y => independentMagnitudeD_f ..)
  · exact ((betaD_sound (.const a1) (.var 0) (.var 1) (.var 2) 0 h1 h2 ha1 hm1).mul (betaD_sound (.const a2) (.var 0) (.var 1) (.var 2) 0 h1 h2 ha2 hm)).read
      (.of_forall fun y => iidMagnitudeD_f ..)

/-- **C129** (`PowerlawRedshiftModel`): the density at every redshift above -1 (also beyond the maximum), the log density wherever the volume element is
positive, and the normalisation, in the slope, for all slopes. -/
theorem C129_redshift (m : ZModel) (hm : m.OK) (twoD : Bool) (z : Arr ℝ) (i : ℕ) (hz : -1 < z.get i) (lamb : ℝ) :
    (m.callD twoD z (.var 0) i).Sound ![lamb] (fun θ : Fin 1 → ℝ => (m.call twoD z (θ 0) i).toReal) ∧
    (m.normalizationD (.var 0)).Sound ![lamb] (fun θ : Fin 1 → ℝ => m.normalization (θ 0)) ∧
    (0 < m.dVdz twoD i → (m.logProbD twoD z (.var 0) i).Sound ![lamb] (fun θ : Fin 1 → ℝ => (m.logProb twoD z (θ 0) i).toReal)) :=
  ⟨zcallParD_sound m hm twoD z i hz (.var 0), znormD_sound m hm (.var 0), fun hv => zlogProbD_sound m hm twoD z i hz hv (.var 0)⟩

/-! ### the property: the power-law-plus-peak example -/

/-- the values inside the support of a prior -/
def HyperPrior.inside : HyperPrior → ℝ → Prop
  | .normal _ _, _ => True
  | .uniform lo hi, x => lo < x ∧ x < hi
  | .halfNormal _, x => 0 < x

/-- every hyper-parameter of the example is inside the support of its prior -/
def InsidePriors (mmin mmax : ℝ) (θ : Fin 14 → ℝ) : Prop := ∀ k p, (k, p) ∈ plpeakPriors mmin mmax → p.inside (plpeakValue θ k)

/-- a complete data set whose first `L` samples have: positive masses, the primary not exactly `mmin`; positive mass ratio; spin magnitudes strictly between
0 and 1; redshift above -1; positive prior.  The tilts are free. -/
structure GoodSamples (mmin : ℝ) (d : PyDict (Arr ℝ)) (L : ℕ) (m1 q z : Arr ℝ) : Prop where
  m1_ : d.get? "mass_1" = some m1
  q_ : d.get? "mass_ratio" = some q
  a1_ : ∃ a, d.get? "a_1" = some a ∧ ∀ i < L, 0 < a.get i ∧ a.get i < 1
  a2_ : ∃ a, d.get? "a_2" = some a ∧ ∀ i < L, 0 < a.get i ∧ a.get i < 1
  ct1_ : ∃ a, d.get? "cos_tilt_1" = some a
  ct2_ : ∃ a, d.get? "cos_tilt_2" = some a
  z_ : d.get? "redshift" = some z
  pr_ : ∃ a, d.get? "prior" = some a ∧ ∀ i < L, 0 < a.get i
  pos : ∀ i < L, 0 < m1.get i ∧ m1.get i ≠ mmin ∧ 0 < q.get i ∧ -1 < z.get i

section example_
variable {mmin mmax : ℝ} {θ : Fin 14 → ℝ}

/-- the conditions the proofs use -/
structure PLHyper (θ : Fin 14 → ℝ) : Prop where
  s : 0 < θ 3
  l : 0 < θ 4 ∧ θ 4 < 1
  mu1 : 0 < θ 5 ∧ θ 5 < 1
  v1 : 0 < θ 6
  mu2 : 0 < θ 7 ∧ θ 7 < 1
  v2 : 0 < θ 8
  x1 : 0 < θ 9 ∧ θ 9 < 1
  x2 : 0 < θ 10 ∧ θ 10 < 1
  s1 : 0 < θ 11
  s2 : 0 < θ 12

theorem InsidePriors.hyper (h : InsidePriors mmin mmax θ) : PLHyper θ := by
  have k3 := h "sig_peak" (.halfNormal 10) (by simp [plpeakPriors])
  have k4 := h "lambda_m" (.uniform 0 1) (by simp [plpeakPriors])
  have k5 := h "mu_a1" (.uniform 0 1) (by simp [plpeakPriors])
  have k6 := h "var_a1" (.uniform 0.005 0.25) (by simp [plpeakPriors])
  have k7 := h "mu_a2" (.uniform 0 1) (by simp [plpeakPriors])
  have k8 := h "var_a2" (.uniform 0.005 0.25) (by simp [plpeakPriors])
  have k9 := h "lambda_ct1" (.uniform 0 1) (by simp [plpeakPriors])
  have k10 := h "lambda_ct2" (.uniform 0 1) (by simp [plpeakPriors])
  have k11 := h "sig_ct1" (.uniform 0.1 4) (by simp [plpeakPriors])
  have k12 := h "sig_ct2" (.uniform 0.1 4) (by simp [plpeakPriors])
  exact ⟨k3, k4, k5, lt_trans (by norm_num) k6.1, k7, lt_trans (by norm_num) k8.1, k9, k10, lt_trans (by norm_num) k11.1, lt_trans (by norm_num) k12.1⟩

theorem PLHyper.eventually (h : PLHyper θ) : ∀ᶠ t in 𝓝 θ, PLHyper t := by
  have hc : ∀ k : Fin 14, ContinuousAt (fun t : Fin 14 → ℝ => t k) θ := fun k => continuousAt_apply k θ
  filter_upwards [(hc 3).eventually (lt_mem_nhds h.s), (hc 4).eventually (lt_mem_nhds h.l.1), (hc 4).eventually (gt_mem_nhds h.l.2),
    (hc 5).eventually (lt_mem_nhds h.mu1.1), (hc 5).eventually (gt_mem_nhds h.mu1.2), (hc 6).eventually (lt_mem_nhds h.v1),
    (hc 7).eventually (lt_mem_nhds h.mu2.1), (hc 7).eventually (gt_mem_nhds h.mu2.2), (hc 8).eventually (lt_mem_nhds h.v2),
    (hc 9).eventually (lt_mem_nhds h.x1.1), (hc 9).eventually (gt_mem_nhds h.x1.2), (hc 10).eventually (lt_mem_nhds h.x2.1),
    (hc 10).eventually (gt_mem_nhds h.x2.2), (hc 11).eventually (lt_mem_nhds h.s1), (hc 12).eventually (lt_mem_nhds h.s2)]
    with t a1 a2 a3 a4 a5 a6 a7 a8 a9 a10 a11 a12 a13 a14 a15
  exact ⟨a1, ⟨a2, a3⟩, ⟨a4, a5⟩, a6, ⟨a7, a8⟩, a9, ⟨a10, a11⟩, ⟨a12, a13⟩, a14, a15⟩

/-- the mass factor, with fixed bounds: also on the edges `m1 = mmax`, `q = 1`, `q m1 = mmin` -/
theorem massD_sound {m1 q : ℝ} (h0 : 0 < mmin) (h : mmin < mmax) (hθ : PLHyper θ) (hm : 0 < m1) (hq : 0 < q) (e1 : m1 ≠ mmin) (ha : θ 1 ≠ -1) (hb : θ 0 ≠ -1) :
    (plpeakD (.const (fin m1)) (.const (fin q)) (.var 1) (.var 0) (.const (fin mmin)) (.const (fin mmax)) (.var 2) (.var 3) (.var 4)).Sound θ
      fun t : Fin 14 → ℝ => (plpeak_primary_ratio_pdf (fin m1) (fin q) (fin (t 1)) (fin (t 0)) (fin mmin) (fin mmax) (fin (t 2)) (fin (t 3)) (fin (t 4))).toReal := by
  have hr := (Diff.Sound.const (x := θ) mmin).div (.const m1) hm.ne'
  have k1 := powerlawD_sound' (.const q) (.var 0) hr (.const 1) 0 hq (div_pos h0 hm) one_pos
    (by rw [Ne, div_eq_one_iff_eq hm.ne']; exact fun e => e1 e.symm) (em_const (q < mmin / m1 ∨ 1 < q)) hb
  have k2 := powerlawD_sound' (x := θ) (.const m1) (.var 1) (.const mmin) (.const mmax) 0 hm h0 (h0.trans h) h.ne (em_const (m1 < mmin ∨ mmax < m1)) ha
  have k3 := truncnormD_sound' (x := θ) (.const m1) (.var 2) (.var 3) (.const mmin) (.const mmax) hθ.s h.ne (em_const (m1 < mmin ∨ mmax < m1))
  refine (k1.mul ((((Diff.Sound.const 1).sub (.var 4)).mul k2).add ((Diff.Sound.var 4).mul k3))).read (.of_forall fun y => ?_)
  exact plpeakD_f ..

theorem magD_sound {a1 a2 : ℝ} (hθ : PLHyper θ) (h1 : 0 < a1 ∧ a1 < 1) (h2 : 0 < a2 ∧ a2 < 1) :
    (independentMagnitudeD (.const (fin a1)) (.const (fin a2)) (plpeakShapesD (.var 5) (.var 6)).1 (plpeakShapesD (.var 5) (.var 6)).2
      (plpeakShapesD (.var 7) (.var 8)).1 (plpeakShapesD (.var 7) (.var 8)).2 (.const 1) (.const 1)).Sound θ
      fun t : Fin 14 → ℝ => (independent_spin_magnitude_beta_dist (fin a1) (fin a2) (fin (t 5 * t 6)) (fin ((1 - t 5) * t 6)) (fin (t 7 * t 8))
        (fin ((1 - t 7) * t 8))).toReal := by
  have m := fun (i j : Fin 14) => (Diff.Sound.var (x := θ) i).mul (Diff.Sound.var (x := θ) j)
  have n := fun (i j : Fin 14) => ((Diff.Sound.const (x := θ) 1).sub (Diff.Sound.var (x := θ) i)).mul (Diff.Sound.var (x := θ) j)
  have k1 := betaD_sound (.const a1) (m 5 6) (n 5 6) (.const 1) 0 (mul_pos hθ.mu1.1 hθ.v1) (mul_pos (sub_pos.2 hθ.mu1.2) hθ.v1) h1.1 h1.2
  have k2 := betaD_sound (.const a2) (m 7 8) (n 7 8) (.const 1) 0 (mul_pos hθ.mu2.1 hθ.v2) (mul_pos (sub_pos.2 hθ.mu2.2) hθ.v2) h2.1 h2.2
  exact (k1.mul k2).read (.of_forall fun y => independentMagnitudeD_f ..)

theorem tiltD_sound (c1 c2 : ℝ) (hθ : PLHyper θ) :
    (independentTiltD (.const (fin c1)) (.const (fin c2)) (.var 9) (.var 10) (.var 11) (.var 12)).Sound θ
      fun t : Fin 14 → ℝ => (independent_spin_tilt (fin c1) (fin c2) (fin (t 9)) (fin (t 10)) (fin (t 11)) (fin (t 12))).toReal :=
  ((isoalignD_sound c1 (.var 9) (.var 11) hθ.s1).mul (isoalignD_sound c2 (.var 10) (.var 12) hθ.s2)).read (.of_forall fun y => independentTiltD_f ..)

/-! #### the weights are not negative -/

theorem powerlaw_nonneg' {x a l h : ℝ} (l0 : 0 < l) (hx : x < l ∨ h < x ∨ l < h) : ∃ v, 0 ≤ v ∧ powerlaw_pdf (fin x) (fin a) (fin l) (fin h) = fin v := by
  rcases hx with h1 | h1 | h1
  · obtain ⟨v, v0, e, _⟩ := powerlaw_some (a := a) (h := h) l0 (Or.inl h1)
    exact ⟨v, v0, e⟩
  · exact ⟨0, le_rfl, by simp only [powerlaw_pdf]; exact if_pos (Or.inr h1)⟩
  · obtain ⟨v, v0, e, _⟩ := powerlaw_some (x := x) (a := a) l0 (Or.inr h1)
    exact ⟨v, v0, e⟩

theorem mass_nonneg {m1 q : ℝ} (h0 : 0 < mmin) (h : mmin < mmax) (hθ : PLHyper θ) (hm : 0 < m1) (e1 : m1 ≠ mmin) :
    ∃ v, 0 ≤ v ∧ plpeak_primary_ratio_pdf (fin m1) (fin q) (fin (θ 1)) (fin (θ 0)) (fin mmin) (fin mmax) (fin (θ 2)) (fin (θ 3)) (fin (θ 4)) = fin v := by
  have hr : q < mmin / m1 ∨ 1 < q ∨ mmin / m1 < 1 := by
    rcases lt_trichotomy (mmin / m1) 1 with h | h | h
    · exact .inr (.inr h)
    · exact absurd ((div_eq_one_iff_eq hm.ne').1 h).symm e1
    · rcases lt_or_ge q (mmin / m1) with h' | h'
      · exact .inl h'
      · exact .inr (.inl (h.trans_le h'))
  obtain ⟨a, a0, ea⟩ := powerlaw_nonneg' (a := θ 0) (div_pos h0 hm) hr
  obtain ⟨b, b0, eb, _⟩ := powerlaw_some (x := m1) (a := θ 1) h0 (Or.inr h)
  obtain ⟨c, c0, ec⟩ := truncnorm_some (x := m1) (mu := θ 2) hθ.s h
  refine ⟨a * ((1 - θ 4) * b + θ 4 * c), mul_nonneg a0 (add_nonneg (mul_nonneg (by linarith [hθ.l.2]) b0) (mul_nonneg hθ.l.1.le c0)), ?_⟩
  simp only [plpeak_primary_ratio_pdf, plpeak_primary_pdf]
  rw [div_fin hm.ne', one_def, ea, eb, ec]
  simp

theorem beta_nonneg' {a α β : ℝ} (hα : 0 < α) (hβ : 0 < β) (h : 0 < a ∧ a < 1) : ∃ v, 0 ≤ v ∧ betadist (fin a) (fin α) (fin β) = fin v := by
  obtain ⟨e, _⟩ := (betaD_sound (α := Fin 1) (x := fun _ => 0) (.const a) (.const α) (.const β) (.const 1) 0 hα hβ h.1 h.2)
  have e' := e.self_of_nhds
  have e2 : betadist (fin a) (fin α) (fin β) = fin (betadist (fin a) (fin α) (fin β)).toReal :=
    (betaD_f (.const (fin a)) (.const (fin α)) (.const (fin β)) (.const 1) (fun _ : Fin 1 => fin 0) 0).symm.trans e'
  refine ⟨_, ?_, e2⟩
  simp only [betadist]
  rw [if_pos (show le (fin a) (1 : F) ∧ ge (fin a) (0 : F) from ⟨h.2.le, h.1.le⟩)]
  have hx : ∀ r : F, 0 ≤ (F.exp r).toReal := by
    intro r
    cases r with
    | fin r => exact (Real.exp_pos r).le
    | pinf => exact le_rfl
    | ninf => exact le_rfl
    | nan => exact le_rfl
  exact hx _

theorem isoalign_nonneg' (c : ℝ) {xi s : ℝ} (hx : 0 < xi ∧ xi < 1) (hs : 0 < s) : ∃ v, 0 ≤ v ∧ mixture_isoalign_spin_tilt (fin c) (fin xi) (fin s) = fin v := by
  obtain ⟨t, t0, et⟩ := truncnorm_some (x := c) (mu := 1) (l := -1) (h := 1) hs (by norm_num)
  have e : truncnorm_pdf (fin c) 1 (fin s) (-1) 1 = fin t := by rw [one_def, neg_fin]; exact et
  simp only [mixture_isoalign_spin_tilt]
  rw [e]
  split_ifs
  · refine ⟨0 * (1 - xi) / 2 + xi * t, by have := mul_nonneg hx.1.le t0; simpa using this, ?_⟩
    rw [zero_def, one_def, sub_fin, mul_fin, ofNat_def, div_fin (by norm_num), mul_fin, add_fin]
  · refine ⟨1 * (1 - xi) / 2 + xi * t, add_nonneg (by linarith [hx.2]) (mul_nonneg hx.1.le t0), ?_⟩
    rw [one_def, sub_fin, mul_fin, ofNat_def, div_fin (by norm_num), mul_fin, add_fin]

theorem zcall_nonneg' (m : ZModel) (hm : m.OK) (twoD : Bool) (z : Arr ℝ) (l : ℝ) (i : ℕ) (hz : -1 < z.get i) : ∃ v, 0 ≤ v ∧ m.call twoD z l i = fin v := by
  by_cases hc : z.get i ≤ m.zmax
  · refine ⟨_, ?_, by rw [ZModel.call, if_pos hc, div_fin (ZModel.norm_pos hm _).ne']⟩
    refine div_nonneg (mul_nonneg ?_ (Real.rpow_nonneg (by linarith) _)) (ZModel.norm_pos hm _).le
    unfold ZModel.dVdz
    split_ifs <;> exact hm.nonneg _
  · exact ⟨0, le_rfl, by rw [ZModel.call, if_neg hc]; rfl⟩

theorem zcallParD_f (m : ZModel) (hm : m.OK) (twoD : Bool) (z : Arr ℝ) (i : ℕ) (hz : -1 < z.get i) {n : ℕ} (k : Fin n) {y : Fin n → ℝ} :
    (m.callD twoD z (.var k) i).f (fun a => fin (y a)) () = m.call twoD z (y k) i := by
  obtain ⟨v, _, e⟩ := zcall_nonneg' m hm twoD z (y k) i hz
  have := (zcallParD_sound m hm twoD z i hz (Diff.Sound.var (x := y) k)).at_point ()
  rw [this, e, toReal_fin]

/-- the programs of the weights, and the weights: entry by entry the gradient is the derivative, and the weights are numbers, not negative -/
theorem plpeakExample_entries {d : PyDict (Arr ℝ)} {L : ℕ} {m1 q z : Arr ℝ} (zm : ZModel) (hz : zm.OK) (twoD : Bool) (h0 : 0 < mmin) (h : mmin < mmax)
    (G : GoodSamples mmin d L m1 q z) (hθ : PLHyper θ) :
    ∃ (P : ℕ → Diff (Fin 14) Unit) (W : (Fin 14 → ℝ) → ℕ → F), plpeakExampleD mmin mmax zm twoD d = .ok P ∧
      (∀ t, plpeakWeight (plpeakValue t) mmin mmax zm twoD d = .ok (W t)) ∧
      (∀ i < L, θ 1 ≠ -1 → θ 0 ≠ -1 → (P i).Sound θ fun t => (W t i).toReal) ∧
      (∀ i < L, ∀ᶠ t in 𝓝 θ, fin (W t i).toReal = W t i ∧ 0 ≤ (W t i).toReal) ∧
      (∀ i < L, OffEdge mmin mmax (m1.get i) (q.get i) → DifferentiableAt ℝ (fun t => (W t i).toReal) θ) ∧
      (∀ i < L, ∀ ct : Unit → F, (θ 1 = -1 → (P i).vjp (fun a => fin (θ a)) ct 1 = nan) ∧ (θ 0 = -1 → (P i).vjp (fun a => fin (θ a)) ct 0 = nan)) := by
  obtain ⟨hm1, hq, ⟨a1, ha1, ka1⟩, ⟨a2, ha2, ka2⟩, ⟨c1, hc1⟩, ⟨c2, hc2⟩, hzz, ⟨pr, hpr, kpr⟩, hpos⟩ := G
  let w : (Fin 14 → ℝ) → ℕ → F := fun t i =>
    plpeak_primary_ratio_pdf (fin (m1.get i)) (fin (q.get i)) (fin (t 1)) (fin (t 0)) (fin mmin) (fin mmax) (fin (t 2)) (fin (t 3)) (fin (t 4))
      * independent_spin_magnitude_beta_dist (fin (a1.get i)) (fin (a2.get i)) (fin (t 5 * t 6)) (fin ((1 - t 5) * t 6)) (fin (t 7 * t 8)) (fin ((1 - t 7) * t 8))
      * independent_spin_tilt (fin (c1.get i)) (fin (c2.get i)) (fin (t 9)) (fin (t 10)) (fin (t 11)) (fin (t 12))
      * zm.call twoD z (t 13) i / fin (pr.get i)
  have hval : ∀ i < L, ∀ t, PLHyper t → ∃ v, 0 ≤ v ∧ w t i = fin v := by
    intro i hi t ht
    obtain ⟨p1, p2, p3, p4⟩ := hpos i hi
    obtain ⟨v1, n1, e1⟩ := mass_nonneg (q := q.get i) h0 h ht p1 p2
    obtain ⟨v2, n2, e2⟩ := beta_nonneg' (mul_pos ht.mu1.1 ht.v1) (mul_pos (sub_pos.2 ht.mu1.2) ht.v1) (ka1 i hi)
    obtain ⟨v3, n3, e3⟩ := beta_nonneg' (mul_pos ht.mu2.1 ht.v2) (mul_pos (sub_pos.2 ht.mu2.2) ht.v2) (ka2 i hi)
    obtain ⟨v4, n4, e4⟩ := isoalign_nonneg' (c1.get i) ht.x1 ht.s1
    obtain ⟨v5, n5, e5⟩ := isoalign_nonneg' (c2.get i) ht.x2 ht.s2
    obtain ⟨v6, n6, e6⟩ := zcall_nonneg' zm hz twoD z (t 13) i p4
    refine ⟨v1 * (v2 * v3) * (v4 * v5) * v6 / pr.get i, div_nonneg (by positivity) (kpr i hi).le, ?_⟩
    simp only [w, independent_spin_magnitude_beta_dist, independent_spin_tilt, e1, e2, e3, e4, e5, e6, mul_fin]
    rw [div_fin (kpr i hi).ne']
  refine ⟨_, w, by unfold plpeakExampleD; simp only [need'_ok hm1, need'_ok hq, need'_ok ha1, need'_ok ha2, need'_ok hc1, need'_ok hc2, need'_ok hzz, need'_ok hpr,
    Bind.bind, Except.bind]; rfl, fun t => ?_, fun i hi ha hb => ?_, fun i hi => ?_, fun i hi ho => ?_, fun i hi ct => ⟨fun hx => ?_, fun hx => ?_⟩⟩
  · unfold plpeakWeight
    simp only [need'_ok hm1, need'_ok hq, need'_ok ha1, need'_ok ha2, need'_ok hc1, need'_ok hc2, need'_ok hzz, need'_ok hpr, Bind.bind, Except.bind]
    rfl
  · obtain ⟨p1, p2, p3, p4⟩ := hpos i hi
    refine (((((massD_sound h0 h hθ p1 p3 p2 ha hb).mul (magD_sound hθ (ka1 i hi) (ka2 i hi))).mul (tiltD_sound (c1.get i) (c2.get i) hθ)).mul
      (zcallParD_sound zm hz twoD z i p4 (.var 13))).div (.const (pr.get i)) (kpr i hi).ne').read (.of_forall fun y => ?_)
    simp only [w, bin_div_f, bin_mul_f, plpeakD_f, independentMagnitudeD_f, independentTiltD_f, zcallParD_f (y := y) zm hz twoD z i p4 13]
    rfl
  · filter_upwards [hθ.eventually] with t ht
    obtain ⟨v, v0, e⟩ := hval i hi t ht
    rw [e, toReal_fin]
    exact ⟨rfl, v0⟩
  · obtain ⟨p1, p2, p3, p4⟩ := hpos i hi
    have k1 : DiffF (fun t : Fin 14 → ℝ => plpeak_primary_ratio_pdf (fin (m1.get i)) (fin (q.get i)) (fin (t 1)) (fin (t 0)) (fin mmin) (fin mmax) (fin (t 2))
        (fin (t 3)) (fin (t 4))) θ := by
      refine ⟨fun t => plpeakDensity ![t 1, t 0, mmin, mmax, t 2, t 3, t 4] (m1.get i) (q.get i), ?_, ?_⟩
      · filter_upwards [hθ.eventually] with t ht
        obtain ⟨v, _, e⟩ := mass_nonneg (q := q.get i) h0 h ht p1 p2
        rw [e]
        change fin v = fin (plpeak_primary_ratio_pdf (fin (m1.get i)) (fin (q.get i)) (fin (t 1)) (fin (t 0)) (fin mmin) (fin mmax) (fin (t 2)) (fin (t 3))
          (fin (t 4))).toReal
        rw [e, toReal_fin]
      · have hd : DifferentiableAt ℝ (fun t : Fin 14 → ℝ => (![t 1, t 0, mmin, mmax, t 2, t 3, t 4] : Fin 7 → ℝ)) θ := by
          refine differentiableAt_pi.2 fun k => ?_
          fin_cases k <;> simp <;> fun_prop
        exact DifferentiableAt.comp (g := fun t => plpeakDensity t (m1.get i) (q.get i)) θ (plpeakDensity_deriv (θ := ![θ 1, θ 0, mmin, mmax, θ 2, θ 3, θ 4]) h0 h hθ.s ho) hd
    have k2 := DiffF.of_sound (magD_sound hθ (ka1 i hi) (ka2 i hi)) (.of_forall fun y => independentMagnitudeD_f ..)
    have k3 := DiffF.of_sound (tiltD_sound (c1.get i) (c2.get i) hθ) (.of_forall fun y => independentTiltD_f ..)
    have k4 := DiffF.of_sound (zcallParD_sound (x := θ) zm hz twoD z i p4 (.var 13)) (.of_forall fun y => zcallParD_f (y := y) zm hz twoD z i p4 13)
    exact ((((k1.mul k2).mul k3).mul k4).div_const (kpr i hi).ne').toReal
  · obtain ⟨p1, p2, p3, p4⟩ := hpos i hi
    change ((((_ + ((_ + (powerlawD (.const (fin (m1.get i))) (.var 1) (.const (fin mmin)) (.const (fin mmax))).vjp (fun a => fin (θ a)) _ 1) + _)) + _) + _) + _) + _ = nan
    rw [powerlawD_nan (l := mmin) (h := mmax) _ (show (Diff.var (1 : Fin 14)).f (fun i => fin (θ i)) () = fin (-1) from congrArg fin hx) rfl rfl (Or.inl (.var _ _))]
    simp
  · obtain ⟨p1, p2, p3, p4⟩ := hpos i hi
    change ((((powerlawD (.const (fin (q.get i))) (.var 0) (.bin .div (.const (fin mmin)) (.const (fin (m1.get i)))) (.const 1)).vjp (fun a => fin (θ a)) _ 0 + _) +
      _) + _) + _ + _ = nan
    rw [powerlawD_nan (l := mmin / m1.get i) (h := 1) _ (show (Diff.var (0 : Fin 14)).f (fun i => fin (θ i)) () = fin (-1) from congrArg fin hx) (div_fin p1.ne') rfl
      (Or.inl (.var _ _))]
    simp

end example_

theorem flat_lt {E N : ℕ} (e : Fin E) (i : Fin N) : (e : ℕ) * N + i < E * N :=
  calc (e : ℕ) * N + i < e * N + N := by omega
    _ = (e + 1) * N := by ring
    _ ≤ E * N := Nat.mul_le_mul_right _ e.2

/-- **C129** (the likelihood of the power-law-plus-peak example).  For hyper-parameters inside the supports of the example's priors and slopes other than
-1, for every catalogue and injection set with physical samples none of which has a primary mass of exactly `mmin`, the gradient of the log likelihood in the
fourteen hyper-parameters is finite and is its derivative, where no cut fires.  Missing: a slope of -1 and a sample at `mmin`, see
`C129_plpeak_example_fails` and `C129_plpeak_edge_fails`. -/
theorem C129_plpeak_example_partial {mmin mmax : ℝ} (h0 : 0 < mmin) (h : mmin < mmax) {zm : ZModel} (hz : zm.OK) {E N M : ℕ} {pe inj : PyDict (Arr ℝ)}
    {m1 q z im1 iq iz : Arr ℝ} (Gp : GoodSamples mmin pe (E * N) m1 q z) (Gi : GoodSamples mmin inj M im1 iq iz) (θ : Fin 14 → ℝ)
    (hθ : InsidePriors mmin mmax θ) (ha : plpeakValue θ "alpha" ≠ -1) (hb : plpeakValue θ "beta" ≠ -1)
    (fl : Flags) (hlog : fl.log = false) (n Nobs : ℕ) (Tobs : F) (hv : Option F) (unscaled : F) (hfl : fl.ok)
    (hhv : fl.reconstruct_rate = true → hv ≠ none) (hE : 0 < E) (hN : 1 ≤ Nobs) (hMn : M ≤ n) :
    ∃ (P Q : ℕ → Diff (Fin 14) Unit) (W V : (Fin 14 → ℝ) → ℕ → F),
      plpeakExampleD mmin mmax zm true pe = .ok P ∧ plpeakExampleD mmin mmax zm false inj = .ok Q ∧
      (∀ t, plpeakWeight (plpeakValue t) mmin mmax zm true pe = .ok (W t)) ∧ (∀ t, plpeakWeight (plpeakValue t) mmin mmax zm false inj = .ok (V t)) ∧
      let w := fun (e : Fin E) (i : Fin N) => (W θ (e * N + i)).toReal
      let v := fun (i : Fin M) => (V θ i).toReal
      ((∀ e, ∃ i, 0 < w e i) → (∃ i, 0 < v i) →
      (fl.min_neff_cut = true → (∀ e, (Nobs : ℝ) < kish (w e)) ∧ 4 * (Nobs : ℝ) * relVar v n < 1) →
      (fl.max_variance_cut = true → (Nobs : ℝ) ^ 2 * (relVar v n - 1 / n) + ∑ e, (1 / (kish (w e)) - 1 / N) < 1) →
      (fl.marginalize_selection = true → 0 < relVar v n) →
      ∃ (L : (Fin 14 → ℝ) → ℝ) (g : Fin 14 → ℝ),
        (∀ᶠ t in 𝓝 θ, factors (hierarchical_likelihood fl (.single fun (e : Fin E) (i : Fin N) => W t (e * N + i))
          (fun (i : Fin M) => V t i) n Nobs Tobs hv unscaled none).1 = [fin (L t)]) ∧
        ((hyperD fl (fun (e : Fin E) (i : Fin N) => P (e * N + i)) (fun (i : Fin M) => Q i) n Nobs).vjp
          (fun a => fin (θ a)) (fun _ => 1) = fun a => fin (g a)) ∧
        HasFDerivAt L (formOf g) θ) := by
  obtain ⟨P, W, hP, hW, sP, vP, -, -⟩ := plpeakExample_entries zm hz true h0 h Gp hθ.hyper
  obtain ⟨Q, V, hQ, hV, sQ, vQ, -, -⟩ := plpeakExample_entries zm hz false h0 h Gi hθ.hyper
  refine ⟨P, Q, W, V, hP, hQ, hW, hV, ?_⟩
  intro w v hwp hvp hneff hvar hr
  have hlt : ∀ (e : Fin E) (i : Fin N), (e : ℕ) * N + i < E * N := flat_lt
  have ew : ∀ x : ℝ, entryWeight fl.log x = x := fun x => by rw [hlog]; rfl
  obtain ⟨L, g, h1, h2, h3⟩ := C127_likelihood (E := E) (N := N) (M := M) fl (fun e i => P (e * N + i)) (fun i => Q i)
    (fun t e i => (W t (e * N + i)).toReal) (fun t i => (V t i).toReal) n Nobs Tobs hv unscaled hfl hhv hE hN hMn θ
    (fun e i => sP _ (hlt e i) ha hb) (fun i => sQ _ i.2 ha hb)
    (by
      simp only [ew]
      exact eventually_all.2 fun e => eventually_all.2 fun i => (vP _ (hlt e i)).mono fun _ h => h.2)
    (by simpa only [ew] using hwp)
    (by
      simp only [ew]
      exact eventually_all.2 fun i => (vQ _ i.2).mono fun _ h => h.2)
    (by simpa only [ew] using hvp) (by simpa only [ew] using hneff) (by simpa only [ew] using hvar) (by simpa only [ew] using hr)
  refine ⟨L, g, ?_, h2, h3⟩
  have gP : ∀ᶠ t in 𝓝 θ, ∀ (e : Fin E) (i : Fin N), fin (W t (e * N + i)).toReal = W t (e * N + i) :=
    eventually_all.2 fun e => eventually_all.2 fun i => (vP _ (hlt e i)).mono fun _ h => h.1
  have gQ : ∀ᶠ t in 𝓝 θ, ∀ (i : Fin M), fin (V t i).toReal = V t i := eventually_all.2 fun i => (vQ _ i.2).mono fun _ h => h.1
  filter_upwards [h1, gP, gQ] with t h hp hq
  simpa only [hp, hq] using h

/-- **C129, refuted at a slope of -1** (the example).  At slopes inside the priors equal to -1, the log likelihood is differentiable in the fourteen
hyper-parameters (here for samples off the edges of the mass model), but the gradient automatic differentiation returns is NaN in `alpha` (entry 1) at
`alpha = -1` and in `beta` (entry 0) at `beta = -1`. -/
theorem C129_plpeak_example_fails {mmin mmax : ℝ} (h0 : 0 < mmin) (h : mmin < mmax) {zm : ZModel} (hz : zm.OK) {E N M : ℕ} {pe inj : PyDict (Arr ℝ)}
    {m1 q z im1 iq iz : Arr ℝ} (Gp : GoodSamples mmin pe (E * N) m1 q z) (Gi : GoodSamples mmin inj M im1 iq iz) (θ : Fin 14 → ℝ)
    (hθ : InsidePriors mmin mmax θ) (op : ∀ i < E * N, OffEdge mmin mmax (m1.get i) (q.get i)) (oi : ∀ i < M, OffEdge mmin mmax (im1.get i) (iq.get i))
    (fl : Flags) (hlog : fl.log = false) (n Nobs : ℕ) (Tobs : F) (hv : Option F) (unscaled : F) (hfl : fl.ok)
    (hhv : fl.reconstruct_rate = true → hv ≠ none) (hE : 0 < E) (hN : 1 ≤ Nobs) (hMn : M ≤ n) :
    ∃ (P Q : ℕ → Diff (Fin 14) Unit) (W V : (Fin 14 → ℝ) → ℕ → F),
      plpeakExampleD mmin mmax zm true pe = .ok P ∧ plpeakExampleD mmin mmax zm false inj = .ok Q ∧
      (∀ t, plpeakWeight (plpeakValue t) mmin mmax zm true pe = .ok (W t)) ∧ (∀ t, plpeakWeight (plpeakValue t) mmin mmax zm false inj = .ok (V t)) ∧
      let w := fun (e : Fin E) (i : Fin N) => (W θ (e * N + i)).toReal
      let v := fun (i : Fin M) => (V θ i).toReal
      let grad := (hyperD fl (fun (e : Fin E) (i : Fin N) => P (e * N + i)) (fun (i : Fin M) => Q i) n Nobs).vjp (fun a => fin (θ a)) (fun _ => 1)
      ((∀ e, ∃ i, 0 < w e i) → (∃ i, 0 < v i) →
      (fl.min_neff_cut = true → (∀ e, (Nobs : ℝ) < kish (w e)) ∧ 4 * (Nobs : ℝ) * relVar v n < 1) →
      (fl.max_variance_cut = true → (Nobs : ℝ) ^ 2 * (relVar v n - 1 / n) + ∑ e, (1 / (kish (w e)) - 1 / N) < 1) →
      (fl.marginalize_selection = true → 0 < relVar v n) →
      (∃ L : (Fin 14 → ℝ) → ℝ, (∀ᶠ t in 𝓝 θ, factors (hierarchical_likelihood fl (.single fun (e : Fin E) (i : Fin N) => W t (e * N + i))
          (fun (i : Fin M) => V t i) n Nobs Tobs hv unscaled none).1 = [fin (L t)]) ∧ DifferentiableAt ℝ L θ) ∧
        (plpeakValue θ "alpha" = -1 → grad 1 = nan) ∧ (plpeakValue θ "beta" = -1 → grad 0 = nan)) := by
  obtain ⟨P, W, hP, hW, -, vP, dP, nP⟩ := plpeakExample_entries zm hz true h0 h Gp hθ.hyper
  obtain ⟨Q, V, hQ, hV, -, vQ, dQ, -⟩ := plpeakExample_entries zm hz false h0 h Gi hθ.hyper
  refine ⟨P, Q, W, V, hP, hQ, hW, hV, ?_⟩
  intro w v grad hwp hvp hneff hvar hr
  have hlt : ∀ (e : Fin E) (i : Fin N), (e : ℕ) * N + i < E * N := flat_lt
  obtain ⟨i, -⟩ := hwp ⟨0, hE⟩
  refine ⟨?_, fun hx => hyperD_nan fl _ _ n Nobs ⟨0, hE⟩ i (fun ct => (nP _ (hlt _ i) ct).1 hx) _, fun hx => hyperD_nan fl _ _ n Nobs ⟨0, hE⟩ i
    (fun ct => (nP _ (hlt _ i) ct).2 hx) _⟩
  obtain ⟨L, g, k1, _, k3⟩ := C125_gradient fl (fun t (e : Fin E) (i : Fin N) => (W t (e * N + i)).toReal) (fun t (i : Fin M) => (V t i).toReal) n Nobs Tobs hv
    unscaled hfl hhv hE hN hMn θ (fun e i => fderiv ℝ (fun t => (W t (e * N + i)).toReal) θ) (fun i => fderiv ℝ (fun t => (V t i).toReal) θ)
    (fun e i => by simpa [EntryDeriv, hlog] using (dP _ (hlt e i) (op _ (hlt e i))).hasFDerivAt)
    (fun i => by simpa [EntryDeriv, hlog] using (dQ _ i.2 (oi _ i.2)).hasFDerivAt)
    (eventually_all.2 fun e => eventually_all.2 fun i => (vP _ (hlt e i)).mono fun _ h => h.2) hwp
    (eventually_all.2 fun i => (vQ _ i.2).mono fun _ h => h.2) hvp hneff hvar hr
  simp only [encode, hlog, Bool.false_eq_true, if_false] at k1
  refine ⟨L, ?_, k3.differentiableAt⟩
  have gP : ∀ᶠ t in 𝓝 θ, ∀ (e : Fin E) (i : Fin N), fin (W t (e * N + i)).toReal = W t (e * N + i) :=
    eventually_all.2 fun e => eventually_all.2 fun i => (vP _ (hlt e i)).mono fun _ h => h.1
  have gQ : ∀ᶠ t in 𝓝 θ, ∀ (i : Fin M), fin (V t i).toReal = V t i := eventually_all.2 fun i => (vQ _ i.2).mono fun _ h => h.1
  filter_upwards [k1, gP, gQ] with t h hp hq
  simpa only [hp, hq] using h

/-- the same bound above and below, outside the range: the branch of the `where` that is not taken divides 0 by 0 -/
theorem powerlawD_edge_nan {α : Type} {xx al lo hi : Diff α Unit} {e : α → F} {r b : ℝ} (hx : xx.f e () = fin r) (r0 : 0 < r) (r1 : r < 1)
    (ha : al.f e () = fin b) (hl : lo.f e () = fin 1) (hh : hi.f e () = fin 1) {a : α} (hn : NanAt al e a) (ct : Unit → F) :
    (powerlawD xx al lo hi).vjp e ct a = nan := by
  have h0 : (powDiffD al lo hi).f e () = fin 0 := by
    change F.pow (hi.f e ()) (1 + al.f e ()) - F.pow (lo.f e ()) (1 + al.f e ()) = _
    rw [ha, hl, hh, one_def, add_fin, pow_fin_pos one_pos, sub_fin, sub_self]
  have hc : lt (xx.f e ()) (lo.f e ()) ∨ gt (xx.f e ()) (hi.f e ()) := by
    rw [hx, hl]
    exact Or.inl r1
  have hp : (Diff.bin .pow xx al).f e () = fin (r ^ b) := by
    change F.pow (xx.f e ()) (al.f e ()) = _
    rw [hx, ha, pow_fin_pos r0]
  have key : ∀ c : Unit → F, c () = fin 0 → (Diff.bin .div (.bin .add (.const 1) al) (powDiffD al lo hi)).vjp e c a = nan := by
    intro c hc
    change (Diff.bin .add (.const 1) al).vjp e (fun b => c b / (powDiffD al lo hi).f e b) a + _ = nan
    rw [hn.add_right _ (by rw [hc, h0]; exact zero_div_zero_nan), nan_add]
  change _ + (_ + (_ + (Diff.bin .div (.bin .add (.const 1) al) (powDiffD al lo hi)).vjp e _ a)) = nan
  rw [key _ ?_]
  · simp
  · change (if feq (al.f e ()) (-1) then (0 : F) else (@ite F _ (Classical.propDecidable _) 0 (ct ())) * (Diff.bin .pow xx al).f e ()) = fin 0
    rw [if_pos hc, hp]
    split_ifs
    · rfl
    · rw [zero_def, mul_fin, zero_mul]

/-- zero, or not a number -/
def ZeroNan (u : F) : Prop := u = fin 0 ∨ u = nan
theorem ZeroNan.mul {u : F} (h : ZeroNan u) (v : F) : ZeroNan (u * v) := by
  rcases h with rfl | rfl
  · cases v with
    | fin r => exact Or.inl (by rw [mul_fin, zero_mul])
    | pinf => exact Or.inr (by rw [fin_mul_pinf]; simp)
    | ninf => exact Or.inr (by rw [fin_mul_ninf]; simp)
    | nan => exact Or.inr (mul_nan _)
  · exact Or.inr (nan_mul _)
theorem ZeroNan.div {u : F} (h : ZeroNan u) (r : ℝ) : ZeroNan (u / fin r) := by
  rcases h with rfl | rfl
  · by_cases hr : r = 0
    · rw [hr]; exact Or.inr zero_div_zero_nan
    · exact Or.inl (by rw [div_fin hr, zero_div])
  · exact Or.inr (nan_div _)

/-- **C129, refuted for a sample at `mmin`** (the example).  If one event sample has a primary mass of exactly `mmin` and a mass ratio below 1, its weight is
0 wherever it is a number, yet it makes the gradient of the log likelihood in `beta` NaN, for all hyper-parameters and all other data. -/
theorem C129_plpeak_edge_fails {mmin mmax : ℝ} (h0 : 0 < mmin) (zm : ZModel) {E N M : ℕ} {pe : PyDict (Arr ℝ)} (hd : HasColumns pe plpeakColumns)
    {m1 q : Arr ℝ} (hm1 : pe.get? "mass_1" = some m1) (hq : pe.get? "mass_ratio" = some q) (e : Fin E) (i : Fin N) (hedge : m1.get (e * N + i) = mmin)
    (q0 : 0 < q.get (e * N + i)) (q1 : q.get (e * N + i) < 1) (Q : Fin M → Diff (Fin 14) Unit) (fl : Flags) (n Nobs : ℕ) (ct : F) (θ : Fin 14 → ℝ) :
    ∃ (P : ℕ → Diff (Fin 14) Unit) (W : (Fin 14 → ℝ) → ℕ → F), plpeakExampleD mmin mmax zm true pe = .ok P ∧
      (∀ t, plpeakWeight (plpeakValue t) mmin mmax zm true pe = .ok (W t)) ∧
      (∀ t, W t (e * N + i) = fin 0 ∨ W t (e * N + i) = nan) ∧
      (hyperD fl (fun (e : Fin E) (i : Fin N) => P (e * N + i)) Q n Nobs).vjp (fun a => fin (θ a)) (fun _ => ct) 0 = nan := by
  obtain ⟨a1, k3⟩ := hd "a_1" (by simp [plpeakColumns])
  obtain ⟨a2, k4⟩ := hd "a_2" (by simp [plpeakColumns])
  obtain ⟨t1, k5⟩ := hd "cos_tilt_1" (by simp [plpeakColumns])
  obtain ⟨t2, k6⟩ := hd "cos_tilt_2" (by simp [plpeakColumns])
  obtain ⟨z, k7⟩ := hd "redshift" (by simp [plpeakColumns])
  obtain ⟨pr, k8⟩ := hd "prior" (by simp [plpeakColumns])
  let w : (Fin 14 → ℝ) → ℕ → F := fun t i =>
    plpeak_primary_ratio_pdf (fin (m1.get i)) (fin (q.get i)) (fin (t 1)) (fin (t 0)) (fin mmin) (fin mmax) (fin (t 2)) (fin (t 3)) (fin (t 4))
      * independent_spin_magnitude_beta_dist (fin (a1.get i)) (fin (a2.get i)) (fin (t 5 * t 6)) (fin ((1 - t 5) * t 6)) (fin (t 7 * t 8)) (fin ((1 - t 7) * t 8))
      * independent_spin_tilt (fin (t1.get i)) (fin (t2.get i)) (fin (t 9)) (fin (t 10)) (fin (t 11)) (fin (t 12))
      * zm.call true z (t 13) i / fin (pr.get i)
  have hP : ∃ P : ℕ → Diff (Fin 14) Unit, plpeakExampleD mmin mmax zm true pe = .ok P ∧
      ∀ ct : Unit → F, (P (e * N + i)).vjp (fun a => fin (θ a)) ct 0 = nan := by
    refine ⟨_, by unfold plpeakExampleD; simp only [need'_ok hm1, need'_ok hq, need'_ok k3, need'_ok k4, need'_ok k5, need'_ok k6, need'_ok k7, need'_ok k8,
      Bind.bind, Except.bind]; rfl, fun ct => ?_⟩
    change ((((powerlawD (.const (fin (q.get (e * N + i)))) (.var 0) (.bin .div (.const (fin mmin)) (.const (fin (m1.get (e * N + i))))) (.const 1)).vjp
      (fun a => fin (θ a)) _ 0 + _) + _) + _) + _ + _ = nan
    rw [powerlawD_edge_nan (xx := .const (fin (q.get (e * N + i)))) (al := .var (0 : Fin 14)) (hi := .const 1) (e := fun a => fin (θ a)) (r := q.get (e * N + i))
      (b := θ 0) rfl q0 q1 rfl ?_ rfl (.var _ _)]
    · simp
    · change fin mmin / fin (m1.get (e * N + i)) = fin 1
      rw [hedge, div_fin h0.ne', div_self h0.ne']
  obtain ⟨P, hP, hn⟩ := hP
  refine ⟨P, w, hP, fun t => ?_, fun t => ?_, hyperD_nan fl _ _ n Nobs e i hn _⟩
  · unfold plpeakWeight
    simp only [need'_ok hm1, need'_ok hq, need'_ok k3, need'_ok k4, need'_ok k5, need'_ok k6, need'_ok k7, need'_ok k8, Bind.bind, Except.bind]
    rfl
  · have hz : ZeroNan (plpeak_primary_ratio_pdf (fin (m1.get (e * N + i))) (fin (q.get (e * N + i))) (fin (t 1)) (fin (t 0)) (fin mmin) (fin mmax) (fin (t 2))
        (fin (t 3)) (fin (t 4))) := by
      simp only [plpeak_primary_ratio_pdf]
      refine ZeroNan.mul (Or.inl ?_) _
      rw [hedge, div_fin h0.ne', div_self h0.ne']
      simp only [powerlaw_pdf]
      exact if_pos (Or.inl q1)
    exact (((hz.mul _).mul _).mul _).div _

/-- the weight of a sample inside every range is positive: the conditions of `C129_plpeak_example_partial` on the weights are conditions on the data -/
theorem plpeak_weight_pos {mmin mmax : ℝ} (h0 : 0 < mmin) {zm : ZModel} (hz : zm.OK) (twoD : Bool) {d : PyDict (Arr ℝ)} {L : ℕ} {m1 q z : Arr ℝ}
    (G : GoodSamples mmin d L m1 q z) {θ : Fin 14 → ℝ} (hθ : InsidePriors mmin mmax θ) {i : ℕ} (hi : i < L) (hm : m1.get i < mmax)
    (hq : mmin < q.get i * m1.get i) (hq1 : q.get i < 1) (hc1 : ∀ a, d.get? "cos_tilt_1" = some a → -1 ≤ a.get i ∧ a.get i ≤ 1)
    (hc2 : ∀ a, d.get? "cos_tilt_2" = some a → -1 ≤ a.get i ∧ a.get i ≤ 1) (hzz : z.get i ≤ zm.zmax) (hdV : 0 < zm.dVdz twoD i) {W : ℕ → F}
    (hW : plpeakWeight (plpeakValue θ) mmin mmax zm twoD d = .ok W) : 0 < (W i).toReal := by
  have ht := hθ.hyper
  obtain ⟨km1, kq, ⟨a1, ha1, ka1⟩, ⟨a2, ha2, ka2⟩, ⟨c1, kc1⟩, ⟨c2, kc2⟩, kz, ⟨pr, hpr, kpr⟩, hpos⟩ := G
  obtain ⟨p1, p2, p3, p4⟩ := hpos i hi
  have hmm : mmin < mmax := by
    have : mmin < m1.get i := by nlinarith
    exact this.trans hm
  have e1 := (plpeakDensity_sign (t := ![θ 1, θ 0, mmin, mmax, θ 2, θ 3, θ 4]) p1 hq1 h0 hmm ht.s ht.l.1.le ht.l.2).2 hq hm
  obtain ⟨v1, -, k1⟩ := mass_nonneg (q := q.get i) h0 hmm ht p1 p2
  have n1 : 0 < v1 := by
    have : plpeakDensity ![θ 1, θ 0, mmin, mmax, θ 2, θ 3, θ 4] (m1.get i) (q.get i) = v1 := by
      change (plpeak_primary_ratio_pdf (fin (m1.get i)) (fin (q.get i)) (fin (θ 1)) (fin (θ 0)) (fin mmin) (fin mmax) (fin (θ 2)) (fin (θ 3)) (fin (θ 4))).toReal = v1
      rw [k1, toReal_fin]
    linarith
  have beta_pos : ∀ {a α β : ℝ}, 0 < α → 0 < β → 0 < a ∧ a < 1 → ∃ v, 0 < v ∧ betadist (fin a) (fin α) (fin β) = fin v := by
    intro a α β h1 h2 h3
    refine ⟨_, ?_, betadist_in h1 h2 h3.1 h3.2⟩
    have hb := ProbabilityTheory.beta_pos h1 h2
    have u : 0 < 1 - a / 1 := by linarith [h3.2, div_one a]
    have w : 0 < a / 1 := by linarith [h3.1, div_one a]
    rw [betaR]
    positivity
  obtain ⟨v2, n2, k2⟩ := beta_pos (mul_pos ht.mu1.1 ht.v1) (mul_pos (sub_pos.2 ht.mu1.2) ht.v1) (ka1 i hi)
  obtain ⟨v3, n3, k3⟩ := beta_pos (mul_pos ht.mu2.1 ht.v2) (mul_pos (sub_pos.2 ht.mu2.2) ht.v2) (ka2 i hi)
  have tilt_pos : ∀ {c xi s : ℝ}, -1 ≤ c ∧ c ≤ 1 → 0 < xi ∧ xi < 1 → 0 < s → ∃ v, 0 < v ∧ mixture_isoalign_spin_tilt (fin c) (fin xi) (fin s) = fin v := by
    intro c xi s h1 h2 h3
    exact ⟨_, add_pos (by linarith [h2.2]) (mul_pos h2.1 (tnPdf_pos h3 (by norm_num) c)), isoalign_in h3 h1.1 h1.2⟩
  obtain ⟨v4, n4, k4⟩ := tilt_pos (hc1 c1 kc1) ht.x1 ht.s1
  obtain ⟨v5, n5, k5⟩ := tilt_pos (hc2 c2 kc2) ht.x2 ht.s2
  have k6 : zm.call twoD z (θ 13) i = fin (ZModel.prob (z.get i) (zm.dVdz twoD i) (θ 13) / zm.normalization (θ 13)) := by
    rw [ZModel.call, if_pos hzz, div_fin (ZModel.norm_pos hz _).ne']
  have n6 : 0 < ZModel.prob (z.get i) (zm.dVdz twoD i) (θ 13) / zm.normalization (θ 13) :=
    div_pos (mul_pos hdV (Real.rpow_pos_of_pos (by linarith) _)) (ZModel.norm_pos hz _)
  unfold plpeakWeight at hW
  simp only [need'_ok km1, need'_ok kq, need'_ok ha1, need'_ok ha2, need'_ok kc1, need'_ok kc2, need'_ok kz, need'_ok hpr, Bind.bind, Except.bind,
    Except.ok.injEq] at hW
  rw [← hW]
  change 0 < (plpeak_primary_ratio_pdf (fin (m1.get i)) (fin (q.get i)) (fin (θ 1)) (fin (θ 0)) (fin mmin) (fin mmax) (fin (θ 2)) (fin (θ 3)) (fin (θ 4)) *
    (betadist (fin (a1.get i)) (fin (θ 5 * θ 6)) (fin ((1 - θ 5) * θ 6)) * betadist (fin (a2.get i)) (fin (θ 7 * θ 8)) (fin ((1 - θ 7) * θ 8))) *
    (mixture_isoalign_spin_tilt (fin (c1.get i)) (fin (θ 9)) (fin (θ 11)) * mixture_isoalign_spin_tilt (fin (c2.get i)) (fin (θ 10)) (fin (θ 12))) *
    zm.call twoD z (θ 13) i / fin (pr.get i)).toReal
  rw [k1, k2, k3, k4, k5, k6, mul_fin, mul_fin, mul_fin, mul_fin, mul_fin, div_fin (kpr i hi).ne', toReal_fin]
  have := kpr i hi
  positivity

/-! ### the hypotheses are met -/

/-- one event of two samples, the second of them below `mmin`; two injections, the second above `mmax` -/
def exampleSamples (m2 z1 z2 : ℝ) : PyDict (Arr ℝ) := [("mass_1", ⟨2, fun i => if i = 0 then 30 else m2⟩), ("mass_ratio", ⟨2, fun _ => 4/5⟩),
  ("a_1", ⟨2, fun _ => 1/5⟩), ("a_2", ⟨2, fun _ => 1/2⟩), ("cos_tilt_1", ⟨2, fun i => if i = 0 then 1 else -1⟩), ("cos_tilt_2", ⟨2, fun _ => 0⟩),
  ("redshift", ⟨2, fun i => if i = 0 then z1 else z2⟩), ("prior", ⟨2, fun _ => 1/2⟩)]

theorem exampleSamples_good {m2 z1 z2 : ℝ} (hm : 0 < m2) (hm' : m2 ≠ 5) (h1 : 0 < z1) (h2 : 0 < z2) :
    GoodSamples 5 (exampleSamples m2 z1 z2) 2 ⟨2, fun i => if i = 0 then 30 else m2⟩ ⟨2, fun _ => 4/5⟩ ⟨2, fun i => if i = 0 then z1 else z2⟩ := by
  refine ⟨rfl, rfl, ⟨_, rfl, fun i _ => by norm_num⟩, ⟨_, rfl, fun i _ => by norm_num⟩, ⟨_, rfl⟩, ⟨_, rfl⟩, rfl, ⟨_, rfl, fun i _ => by norm_num⟩, fun i _ => ?_⟩
  dsimp only
  split_ifs
  · exact ⟨by norm_num, by norm_num, by norm_num, by linarith⟩
  · exact ⟨hm, hm', by norm_num, by linarith⟩

/-- the hyper-parameters of the example, for two slopes -/
def exampleHyper (beta alpha : ℝ) : Fin 14 → ℝ
  | 0 => beta | 1 => alpha | 2 => 35 | 3 => 4 | 4 => 1/10 | 5 => 3/10 | 6 => 1/10 | 7 => 2/5 | 8 => 1/5 | 9 => 1/2 | 10 => 3/4 | 11 => 1 | 12 => 2 | 13 => 3

theorem exampleHyper_inside (b a : ℝ) : InsidePriors 5 100 (exampleHyper b a) := by
  intro k p h
  simp only [plpeakPriors, List.mem_cons, Prod.mk.injEq, List.not_mem_nil, or_false] at h
  rcases h with h | h | h | h | h | h | h | h | h | h | h | h | h | h <;> obtain ⟨rfl, rfl⟩ := h <;>
    simp only [HyperPrior.inside, plpeakValue, exampleHyper] <;> norm_num

theorem exampleZ_max : exampleZ.zmax = 1/2 := by
  simp [exampleZ, ZModel.zmax, arrMax, List.range_succ]; norm_num

/-- `C129_plpeak_example_partial` applied to these data -/
example : ∃ (P Q : ℕ → Diff (Fin 14) Unit) (g : Fin 14 → ℝ),
    plpeakExampleD 5 100 exampleZ true (exampleSamples 4 (1/10) (1/2)) = .ok P ∧ plpeakExampleD 5 100 exampleZ false (exampleSamples 120 (1/5) (9/10)) = .ok Q ∧
    (hyperD { min_neff_cut := false } (fun (e : Fin 1) (i : Fin 2) => P (e * 2 + i)) (fun (i : Fin 2) => Q i) 4 1).vjp
      (fun a => fin (exampleHyper 1 (-2) a)) (fun _ => 1) = fun a => fin (g a) := by
  obtain ⟨P, Q, W, V, hP, hQ, hW, hV, h⟩ := C129_plpeak_example_partial (E := 1) (N := 2) (M := 2) (mmin := 5) (mmax := 100) (by norm_num) (by norm_num) exampleZ_OK
    (exampleSamples_good (m2 := 4) (z1 := 1/10) (z2 := 1/2) (by norm_num) (by norm_num) (by norm_num) (by norm_num))
    (exampleSamples_good (m2 := 120) (z1 := 1/5) (z2 := 9/10) (by norm_num) (by norm_num) (by norm_num) (by norm_num))
    (exampleHyper 1 (-2)) (exampleHyper_inside 1 (-2)) (by simp [plpeakValue, exampleHyper]) (by simp [plpeakValue, exampleHyper]; norm_num)
    { min_neff_cut := false } rfl 4 1 1 (some 1) 1 (by simp [Flags.ok]) (by simp) one_pos le_rfl (by norm_num)
  have w0 := plpeak_weight_pos (mmin := 5) (mmax := 100) (by norm_num) exampleZ_OK true
    (exampleSamples_good (m2 := 4) (z1 := 1/10) (z2 := 1/2) (by norm_num) (by norm_num) (by norm_num) (by norm_num)) (exampleHyper_inside 1 (-2)) (i := 0)
    (by norm_num) (by norm_num) (by norm_num) (by norm_num)
    (fun a ha => by cases ha; norm_num) (fun a ha => by cases ha; norm_num) (by rw [exampleZ_max]; norm_num)
    (by norm_num [ZModel.dVdz, exampleZ]) (hW _)
  have v0 := plpeak_weight_pos (mmin := 5) (mmax := 100) (by norm_num) exampleZ_OK false
    (exampleSamples_good (m2 := 120) (z1 := 1/5) (z2 := 9/10) (by norm_num) (by norm_num) (by norm_num) (by norm_num)) (exampleHyper_inside 1 (-2)) (i := 0)
    (by norm_num) (by norm_num) (by norm_num) (by norm_num)
    (fun a ha => by cases ha; norm_num) (fun a ha => by cases ha; norm_num) (by rw [exampleZ_max]; norm_num)
    (by norm_num [ZModel.dVdz, exampleZ]) (hV _)
  obtain ⟨L, g, -, hg, -⟩ := h (fun e => ⟨0, by have : (e : ℕ) = 0 := by omega
                                                simpa [this] using w0⟩) ⟨0, by simpa using v0⟩ (by simp) (by simp) (by simp)
  exact ⟨P, Q, g, hP, hQ, hg⟩

/-- `C129_plpeak_example_fails` applied to the same data with `alpha = -1` -/
example : ∃ (P Q : ℕ → Diff (Fin 14) Unit),
    plpeakExampleD 5 100 exampleZ true (exampleSamples 4 (1/10) (1/2)) = .ok P ∧ plpeakExampleD 5 100 exampleZ false (exampleSamples 120 (1/5) (9/10)) = .ok Q ∧
    (hyperD { min_neff_cut := false } (fun (e : Fin 1) (i : Fin 2) => P (e * 2 + i)) (fun (i : Fin 2) => Q i) 4 1).vjp
      (fun a => fin (exampleHyper 1 (-1) a)) (fun _ => 1) 1 = nan := by
  have off : ∀ m2 : ℝ, 0 < m2 → m2 ≠ 5 → m2 ≠ 100 → 4/5 * m2 ≠ 5 → ∀ i : ℕ, OffEdge 5 100 (if i = 0 then 30 else m2) (4/5) := by
    intro m2 h1 h2 h3 h4 i
    split_ifs
    · exact ⟨by norm_num, by norm_num, by norm_num, by norm_num, by norm_num, by norm_num⟩
    · exact ⟨h1, by norm_num, by norm_num, h2, h3, h4⟩
  obtain ⟨P, Q, W, V, hP, hQ, hW, hV, h⟩ := C129_plpeak_example_fails (E := 1) (N := 2) (M := 2) (mmin := 5) (mmax := 100) (by norm_num) (by norm_num) exampleZ_OK
    (exampleSamples_good (m2 := 4) (z1 := 1/10) (z2 := 1/2) (by norm_num) (by norm_num) (by norm_num) (by norm_num))
    (exampleSamples_good (m2 := 120) (z1 := 1/5) (z2 := 9/10) (by norm_num) (by norm_num) (by norm_num) (by norm_num))
    (exampleHyper 1 (-1)) (exampleHyper_inside 1 (-1)) (fun i _ => off 4 (by norm_num) (by norm_num) (by norm_num) (by norm_num) i)
    (fun i _ => off 120 (by norm_num) (by norm_num) (by norm_num) (by norm_num) i)
    { min_neff_cut := false } rfl 4 1 1 (some 1) 1 (by simp [Flags.ok]) (by simp) one_pos le_rfl (by norm_num)
  have w0 := plpeak_weight_pos (mmin := 5) (mmax := 100) (by norm_num) exampleZ_OK true
    (exampleSamples_good (m2 := 4) (z1 := 1/10) (z2 := 1/2) (by norm_num) (by norm_num) (by norm_num) (by norm_num)) (exampleHyper_inside 1 (-1)) (i := 0)
    (by norm_num) (by norm_num) (by norm_num) (by norm_num)
    (fun a ha => by cases ha; norm_num) (fun a ha => by cases ha; norm_num) (by rw [exampleZ_max]; norm_num)
    (by norm_num [ZModel.dVdz, exampleZ]) (hW _)
  have v0 := plpeak_weight_pos (mmin := 5) (mmax := 100) (by norm_num) exampleZ_OK false
    (exampleSamples_good (m2 := 120) (z1 := 1/5) (z2 := 9/10) (by norm_num) (by norm_num) (by norm_num) (by norm_num)) (exampleHyper_inside 1 (-1)) (i := 0)
    (by norm_num) (by norm_num) (by norm_num) (by norm_num)
    (fun a ha => by cases ha; norm_num) (fun a ha => by cases ha; norm_num) (by rw [exampleZ_max]; norm_num)
    (by norm_num [ZModel.dVdz, exampleZ]) (hV _)
  obtain ⟨-, h1, -⟩ := h (fun e => ⟨0, by have : (e : ℕ) = 0 := by omega
                                          simpa [this] using w0⟩) ⟨0, by simpa using v0⟩ (by simp) (by simp) (by simp)
  exact ⟨P, Q, hP, hQ, h1 rfl⟩

/-- `C129_plpeak_edge_fails` applied to an event with a sample at `m1 = mmin = 5` -/
example (θ : Fin 14 → ℝ) : ∃ P : ℕ → Diff (Fin 14) Unit, plpeakExampleD 5 100 exampleZ true (exampleSamples 5 (1/10) (1/2)) = .ok P ∧
    (hyperD {} (fun (e : Fin 1) (i : Fin 2) => P (e * 2 + i)) (fun _ : Fin 1 => .const 1) 4 1).vjp (fun a => fin (θ a)) (fun _ => 1) 0 = nan := by
  obtain ⟨P, _, h1, _, _, h2⟩ := C129_plpeak_edge_fails (mmin := 5) (mmax := 100) (by norm_num) exampleZ (E := 1) (N := 2) (M := 1)
    (pe := exampleSamples 5 (1/10) (1/2)) (m1 := ⟨2, fun i => if i = 0 then 30 else 5⟩) (q := ⟨2, fun _ => 4/5⟩)
    (fun k hk => by
      simp only [plpeakColumns, List.mem_cons, List.not_mem_nil, or_false] at hk
      rcases hk with rfl | rfl | rfl | rfl | rfl | rfl | rfl | rfl <;> exact ⟨_, rfl⟩)
    rfl rfl 0 1 (by simp) (by norm_num) (by norm_num) (fun _ => .const 1) {} 4 1 1 θ
  exact ⟨P, h1, h2⟩

/-- a taper of width 5 above 5, at 8, and the spin and redshift models at concrete points -/
example : (smoothD (.var 0) (.const (fin 8)) (.var 1)).Sound ![5, 5] fun θ : Fin 2 → ℝ => (smooth (fin (θ 0)) (fin 8) (fin (θ 1))).toReal :=
  C129_smooth 8 5 5 (by norm_num) (by norm_num) (by norm_num)
example := C129_logit 30 (-2) 5 80 (1/2) 4 (by norm_num)
example := C129_falloff_partial 30 (4/5) (-1) 2 5 80 (1/2) (by norm_num) (by norm_num) (by norm_num) (by norm_num) (by norm_num) (by norm_num) (by norm_num)
example := (C129_falloff_fails 30 (4/5) (-2) 5 80 (1/2) 1 (by norm_num)).2 (by norm_num) (by norm_num) (by norm_num)
example := C129_plpeak_smooth_partial 30 (4/5) (-2) 1 5 100 35 4 (1/10) 3 ⟨by norm_num, by norm_num, by norm_num, by norm_num, by norm_num, by norm_num⟩
  (by norm_num) (by norm_num) (by norm_num) (by norm_num) (by norm_num) (by norm_num) (by norm_num) (by norm_num)
example := (C129_plpeak_smooth_fails 30 (4/5) ![-1, 1, 5, 100, 35, 4, 1/10, 3] (by norm_num) 1).1 rfl
example := C129_tilt 1 (-1/2) (3/5) (2/5) (1/2) 2 (by norm_num) (by norm_num)
example := C129_magnitude_partial (1/5) (1/2) 2 5 3 4 1 1 (by norm_num) (by norm_num) (by norm_num) (by norm_num) (by norm_num) (by norm_num) (by norm_num) (by norm_num)
example := C129_redshift exampleZ exampleZ_OK true ⟨1, fun _ => 3/10⟩ 0 (by norm_num) 3

end GW
end
