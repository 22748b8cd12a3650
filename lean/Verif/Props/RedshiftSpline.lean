import Verif.Props.SplineModels
import Verif.Props.RedshiftModel

/-! # Property C35: the redshift spline models -/

open Finset
noncomputable section
open Classical
namespace GW
open F

/-- Specification: `d` is proportional to `w` and has unit trapezoid integral on the 1000-point grid from `a` to `b`. -/
structure UnitOnGrid (w : ℝ → ℝ) (a b : ℝ) (d : ℝ → ℝ) : Prop where
  shape : ∃ c : ℝ, 0 < c ∧ ∀ z, d z = c * w z
  unit : trapz 1000 (fun i => d ((linspace a b 1000).get i)) (linspace a b 1000).get = 1

/-- the LogX spline `sum_i c_i B_i(z)` -/
def logXSum (s : Spline) (c : ℕ → ℝ) (z : ℝ) : ℝ := einsum s.N (fun i => s.logXBases i z) c

theorem unitOnGrid_of_pos {w : ℝ → ℝ} {a b : ℝ} (hab : a < b) (hw : ∀ z, a ≤ z → z ≤ b → 0 < w z) :
    0 < trapz 1000 (fun i => w ((linspace a b 1000).get i)) (linspace a b 1000).get ∧
    UnitOnGrid w a b fun z => w z / trapz 1000 (fun i => w ((linspace a b 1000).get i)) (linspace a b 1000).get := by
  have hpos : 0 < trapz 1000 (fun i => w ((linspace a b 1000).get i)) (linspace a b 1000).get :=
    trapz_pos (by norm_num) (fun i hi => hw _ (linspace_mem hab hi).1 (linspace_mem hab hi).2)
      (fun i _ => linspace_strictMono hab (by norm_num) (Nat.lt_succ_self i))
  refine ⟨hpos, ⟨⟨_, inv_pos.2 hpos, fun z => by rw [div_eq_inv_mul]⟩, ?_⟩⟩
  rw [trapz_div, div_self hpos.ne']

/-! ### BSplineRedshift -/

theorem ZSpline.make_ok {dV : ℝ → ℝ} {n : ℕ} {z zi v vi : List F} {lo hi : ℝ} {d : ℕ} {nrm : Bool} {m : ZSpline}
    (h : ZSpline.make dV n z zi v vi lo hi .logX d nrm = .ok m) :
    Base1D.make .logX n z zi lo hi d nrm = .ok m.base ∧ m.dV = dV ∧ m.z = z ∧ m.zInj = zi ∧ m.dVdc = v ∧
      m.dVdcInj = vi := by
  unfold ZSpline.make at h
  cases hb : Base1D.make .logX n z zi lo hi d nrm with
  | error e => rw [hb] at h; simp [bind, Except.bind] at h
  | ok base =>
    rw [hb] at h
    simp only [bind, Except.bind, pure, Except.pure, Except.ok.injEq] at h
    subst h
    exact ⟨rfl, rfl, rfl, rfl, rfl, rfl⟩

theorem Interp.logX_ok {n : ℕ} {lo hi : ℝ} {k : ℕ} {nrm : Bool} {I : Interp}
    (h : Interp.make .logX n lo hi k nrm = .ok I) :
    ∃ s, logXInit n none none lo hi k = .ok s ∧ I = ⟨.logX, s, nrm⟩ := by
  cases hs : logXInit n none none lo hi k with
  | error e => simp [Interp.make, hs, bind, Except.bind] at h
  | ok s =>
    simp only [Interp.make, hs, bind, Except.bind, pure, Except.pure, Except.ok.injEq] at h
    exact ⟨s, rfl, h.symm⟩

/-- the merger-rate density per unit redshift, before normalisation -/
def rateWeight (dV : ℝ → ℝ) (s : Spline) (c : ℕ → ℝ) (z : ℝ) : ℝ := dV z / (1 + z) * Real.exp (logXSum s c z)

theorem ZSpline.norm_eq (m : ZSpline) (s : Spline) (nrm : Bool) (hI : m.base.interp = ⟨.logX, s, nrm⟩) (c : ℕ → ℝ)
    (hmin : 0 < m.zmin) (hlt : m.zmin < m.zmax) :
    m.normalization c = fin (trapz 1000 (fun i => rateWeight m.dV s c ((linspace m.zmin m.zmax 1000).get i))
      (linspace m.zmin m.zmax 1000).get) := by
  rw [← trapzF_fin]
  unfold ZSpline.normalization
  refine trapzF_congr (n := 1000) (fun j hj => ?_) (fun _ _ => rfl)
  have hz : 0 < m.zgrid.get j := hmin.trans_le (linspace_mem hlt hj).1
  have e : einsumF m.base.interp.s.N (fun i => m.base.interp.bases i (m.zgrid.get j)) (fun i => fin (c i))
      = fin (logXSum s c (m.zgrid.get j)) := by
    rw [hI, logXSum, ← einsumF_fin]; rfl
  rw [e, F.one_def, F.add_fin, F.div_fin (by linarith), F.exp, F.mul_fin]
  rfl

/-- the entry returned by `__call__`, given the entry of the masked base array -/
theorem ZSpline.call_get (m : ZSpline) (c : ℕ → ℝ) (pe : Bool) (i : ℕ) (z v S N : ℝ) (hz : 0 < z) (hN : N ≠ 0)
    (hnorm : m.normalization c = fin N)
    (h1 : (if pe then m.z else m.zInj)[i]? = some (fin z)) (h2 : (if pe then m.dVdc else m.dVdcInj)[i]? = some (fin v))
    (h3 : (m.base.call c pe)[i]? = some (fin S)) :
    (m.call c pe)[i]? = some (fin (v / (1 + z) * Real.exp S / N)) := by
  have h3' : (if pe then m.base.pePdf c else m.base.injPdf c)[i]? = some (fin S) := h3
  simp only [ZSpline.call, mulArr, List.getElem?_zipWith, List.getElem?_map, h1, h2, h3', Option.map_some]
  rw [hnorm, F.exp, F.mul_fin, F.one_def, F.add_fin, F.div_fin (by linarith), F.div_fin hN]
  refine congrArg (fun t => some (fin t)) ?_
  ring

/-- **C35** (partial: BSplineRedshift constructed with `normalize=False`).  On both data sets every sample with redshift
`z > 0` gets `d z`, where `d` is proportional to `dV/dz /(1+z) * exp(spline(z))` and has unit trapezoid integral over
the model's redshift grid.  (`logXSum` is the spline value inside `[lo,hi]` and 0 outside, C09.)  Missing from the full
property: the default `normalize=True`, and vanishing outside the range — both false, see below. -/
theorem C35_redshift_spline_partial (dV : ℝ → ℝ) (n : ℕ) (z zi v vi : List F) (lo hi : ℝ) (degree : ℕ) (m : ZSpline)
    (hlo : 0 < lo) (hlh : lo < hi) (hn : degree + 1 ≤ n)
    (h : ZSpline.make dV n z zi v vi lo hi .logX degree false = .ok m) (hmin : 0 < m.zmin) (hlt : m.zmin < m.zmax)
    (hdV : ∀ x, m.zmin ≤ x → x ≤ m.zmax → 0 < dV x) (c : ℕ → ℝ) :
    ∃ s, logXInit n none none lo hi (degree + 1) = .ok s ∧ ∃ d, UnitOnGrid (rateWeight dV s c) m.zmin m.zmax d ∧
      ∀ (pe : Bool) (i : ℕ) (x : ℝ), 0 < x → (if pe then z else zi)[i]? = some (fin x) →
        (if pe then v else vi)[i]? = some (fin (dV x)) → (m.call c pe)[i]? = some (fin (d x)) := by
  obtain ⟨hb, e1, e2, e3, e4, e5⟩ := ZSpline.make_ok h
  obtain ⟨s, hs, hI⟩ := Interp.logX_ok (Base1D.make_ok hb).1
  have hw : ∀ x, m.zmin ≤ x → x ≤ m.zmax → 0 < rateWeight m.dV s c x := fun x h1 h2 =>
    mul_pos (div_pos (by rw [e1]; exact hdV x h1 h2) (by linarith)) (Real.exp_pos _)
  obtain ⟨hpos, hunit⟩ := unitOnGrid_of_pos hlt hw
  refine ⟨s, hs, _, by rw [← e1]; exact hunit, fun pe i x hx hx1 hx2 => ?_⟩
  obtain ⟨I, hI', hcall⟩ := C31_masked_evaluation _ _ _ _ _ _ _ _ _ hb c pe
  have hII : I = m.base.interp := by
    have := (Base1D.make_ok hb).1; rw [hI', Except.ok.injEq] at this; exact this
  rw [ZSpline.call_get m c pe i x (dV x) (logXSum s c x) _ hx hpos.ne' (ZSpline.norm_eq m s false hI c hmin hlt)
    (by rw [e2, e3]; exact hx1) (by rw [e4, e5]; exact hx2)]
  · simp only [rateWeight, e1]
  · rw [hcall, List.getElem?_map, hx1, Option.map_some, restrict, hII, hI]
    congr 1
    split_ifs with hr
    · simp [Interp.eval, Interp.project, Interp.rawProject, Interp.bases, Interp.norm, einsumF_fin, logXSum]
    · have h0 : ∀ i, s.logXBases i x = 0 := fun i =>
        C09_logX_zero_outside n (degree + 1) lo hi hlo hlh (by omega) hn s hs x hx
          (by rw [not_and_or, not_le, not_le] at hr; exact hr) i
      rw [logXSum, einsum]; simp [h0]

/-- **C35 fails** outside the range: every sample with `z > 0` outside `[lo,hi]` gets the strictly positive density
`dV(z)/(1+z)` divided by the normalisation (the masked spline value 0 is exponentiated to 1). -/
theorem C35_outside_range_fails (dV : ℝ → ℝ) (n : ℕ) (z zi v vi : List F) (lo hi : ℝ) (degree : ℕ) (nrm : Bool)
    (m : ZSpline) (h : ZSpline.make dV n z zi v vi lo hi .logX degree nrm = .ok m) (hmin : 0 < m.zmin)
    (hlt : m.zmin < m.zmax) (hdV : ∀ x, 0 < x → 0 < dV x) (c : ℕ → ℝ) (pe : Bool) (i : ℕ) (x : ℝ) (hx : 0 < x)
    (hx1 : (if pe then z else zi)[i]? = some (fin x)) (hx2 : (if pe then v else vi)[i]? = some (fin (dV x)))
    (hout : x < lo ∨ hi < x) :
    ∃ N : ℝ, 0 < N ∧ m.normalization c = fin N ∧ (m.call c pe)[i]? = some (fin (dV x / (1 + x) / N)) := by
  obtain ⟨hb, e1, e2, e3, e4, e5⟩ := ZSpline.make_ok h
  obtain ⟨s, hs, hI⟩ := Interp.logX_ok (Base1D.make_ok hb).1
  have hw : ∀ x, m.zmin ≤ x → x ≤ m.zmax → 0 < rateWeight m.dV s c x := fun x h1 h2 =>
    mul_pos (div_pos (by rw [e1]; exact hdV x (by linarith)) (by linarith)) (Real.exp_pos _)
  obtain ⟨hpos, hunit⟩ := unitOnGrid_of_pos hlt hw
  refine ⟨_, hpos, ZSpline.norm_eq m s nrm hI c hmin hlt, ?_⟩
  obtain ⟨I, hI', hcall⟩ := C31_masked_evaluation _ _ _ _ _ _ _ _ _ hb c pe
  rw [ZSpline.call_get m c pe i x (dV x) 0 _ hx hpos.ne' (ZSpline.norm_eq m s nrm hI c hmin hlt)
    (by rw [e2, e3]; exact hx1) (by rw [e4, e5]; exact hx2)]
  · rw [Real.exp_zero, mul_one]
  · rw [hcall, List.getElem?_map, hx1, Option.map_some, restrict, if_neg]
    · rfl
    · rintro ⟨h1, h2⟩
      rcases hout with h | h <;> linarith

theorem trapz_const (a b A : ℝ) : trapz 1000 (fun _ => A) (linspace a b 1000).get = A * (b - a) := by
  unfold trapz
  have : ∀ i : ℕ, ((linspace a b 1000).get (i + 1) - (linspace a b 1000).get i) * (A + A) = (b - a) / 999 * (2 * A) := by
    intro i; simp only [linspace_get]; push_cast; ring
  rw [sum_congr rfl (fun i _ => this i), sum_const, card_range]
  norm_num; ring

/-- **C35 fails** for the default `normalize=True`: the density uses the *normalised* spline, its normalisation the
raw one.  With all coefficients equal to `a > 0` every in-range sample gets `exp(1/(hi-lo) - a)` times the properly
normalised density `d`, so the returned density integrates to `exp(1/(hi-lo) - a)` instead of 1. -/
theorem C35_default_normalisation_fails (dV : ℝ → ℝ) (n : ℕ) (z zi v vi : List F) (lo hi : ℝ) (degree : ℕ) (m : ZSpline)
    (hlo : 0 < lo) (hlh : lo < hi) (hd : 1 ≤ degree) (hn : degree + 1 ≤ n)
    (hgap : 1 / 1000000 ≤ (Real.log hi - Real.log lo) / ((n : ℝ) - (degree + 1 : ℕ) + 1))
    (h : ZSpline.make dV n z zi v vi lo hi .logX degree true = .ok m)
    (hmin : lo ≤ m.zmin) (hlt : m.zmin < m.zmax) (hmax : m.zmax ≤ hi)
    (hdV : ∀ x, m.zmin ≤ x → x ≤ m.zmax → 0 < dV x) (a : ℝ) (ha : 0 < a) :
    ∃ d, UnitOnGrid (fun x => dV x / (1 + x)) m.zmin m.zmax d ∧
      (∀ (pe : Bool) (i : ℕ) (x : ℝ), lo ≤ x → x ≤ hi → (if pe then z else zi)[i]? = some (fin x) →
        (if pe then v else vi)[i]? = some (fin (dV x)) →
        (m.call (fun _ => a) pe)[i]? = some (fin (Real.exp (1 / (hi - lo) - a) * d x))) ∧
      (a ≠ 1 / (hi - lo) → Real.exp (1 / (hi - lo) - a) ≠ 1) := by
  obtain ⟨hb, e1, e2, e3, e4, e5⟩ := ZSpline.make_ok h
  obtain ⟨s, hs, hI⟩ := Interp.logX_ok (Base1D.make_ok hb).1
  obtain ⟨-, hN, hslo, hshi, -, -⟩ := init_default_eq (by omega) hn hs
  have hone : ∀ x, lo ≤ x → x ≤ hi → logXSum s (fun _ => a) x = a := by
    intro x h1 h2
    have := C09_logX_partition_of_unity n (degree + 1) lo hi hlo (by omega) hn hgap s hs x ⟨h1, h2⟩
    rw [logXSum, einsum, ← sum_mul, hN, this, one_mul]
  have hmin0 : 0 < m.zmin := hlo.trans_le hmin
  have hw : ∀ x, m.zmin ≤ x → x ≤ m.zmax → 0 < (fun x => dV x / (1 + x)) x := fun x h1 h2 =>
    div_pos (hdV x h1 h2) (by linarith)
  obtain ⟨hpos, hunit⟩ := unitOnGrid_of_pos hlt hw
  refine ⟨_, hunit, fun pe i x hx0 hxh hx1 hx2 => ?_, fun hne he => hne ?_⟩
  · have hx : 0 < x := hlo.trans_le hx0
    obtain ⟨I, hI', hcall⟩ := C31_masked_evaluation _ _ _ _ _ _ _ _ _ hb (fun _ => a) pe
    have hII : I = m.base.interp := by
      have := (Base1D.make_ok hb).1; rw [hI', Except.ok.injEq] at this; exact this
    have hnorm : m.normalization (fun _ => a) = fin (Real.exp a *
        trapz 1000 (fun i => (fun x => dV x / (1 + x)) ((linspace m.zmin m.zmax 1000).get i))
          (linspace m.zmin m.zmax 1000).get) := by
      rw [ZSpline.norm_eq m s true hI _ hmin0 hlt, ← trapz_smul]
      refine congrArg fin ?_
      refine trapz_congr (fun j hj => ?_) (fun _ _ => rfl)
      obtain ⟨g1, g2⟩ := linspace_mem hlt hj
      rw [rateWeight, hone _ (hmin.trans g1) (g2.trans hmax), e1, mul_comm]
    have hlen : 0 < hi - lo := by linarith
    have hval : I.eval (fun _ => a) x = fin (1 / (hi - lo)) := by
      rw [hII, hI]
      have hg : s.logXGrid = linspace lo hi 1000 := by
        rw [Spline.logXGrid, hslo, hshi, Real.exp_log hlo, Real.exp_log (hlo.trans hlh)]
      have hraw : ∀ y, lo ≤ y → y ≤ hi →
          (Interp.mk .logX s true).rawProject (fun i => (Interp.mk .logX s true).bases i y) (fun _ => a) = fin a := by
        intro y h1 h2
        have : einsumF s.N (fun i => fin (s.logXBases i y)) (fun _ => fin a) = fin (logXSum s (fun _ => a) y) := by
          rw [logXSum, ← einsumF_fin]
        rw [hone y h1 h2] at this
        exact this
      have hnm : (Interp.mk .logX s true).norm (fun _ => a) = fin (1 / (a * (hi - lo))) := by
        rw [Interp.norm, if_pos rfl]
        have : (Interp.mk .logX s true).grid = linspace lo hi 1000 := hg
        rw [this]
        have e : trapzF (linspace lo hi 1000).len (fun j => (Interp.mk .logX s true).rawProject
            (fun i => (Interp.mk .logX s true).bases i ((linspace lo hi 1000).get j)) (fun _ => a))
            (fun j => fin ((linspace lo hi 1000).get j)) = fin (a * (hi - lo)) := by
          rw [← trapz_const lo hi a, ← trapzF_fin]
          exact trapzF_congr (n := 1000) (fun j hj => hraw _ (linspace_mem hlh hj).1 (linspace_mem hlh hj).2)
            (fun _ _ => rfl)
        rw [e, F.one_def, F.div_fin (mul_pos ha hlen).ne']
      rw [Interp.eval, Interp.project, hraw x hx0 hxh, hnm, F.mul_fin, F.fin_inj]
      field_simp
    rw [ZSpline.call_get m _ pe i x (dV x) (1 / (hi - lo)) _ hx (mul_pos (Real.exp_pos a) hpos).ne' hnorm
      (by rw [e2, e3]; exact hx1) (by rw [e4, e5]; exact hx2)]
    · refine congrArg (fun t => some (fin t)) ?_
      rw [Real.exp_sub]
      have := (Real.exp_pos a).ne'
      have := hpos.ne'
      generalize trapz 1000 _ _ = T at *
      have hx1' : 1 + x ≠ 0 := by linarith
      field_simp
    · rw [hcall, List.getElem?_map, hx1, Option.map_some, restrict, if_pos ⟨hx0, hxh⟩, hval]
  · have := (Real.exp_eq_one_iff _).1 he
    linarith

/-! ### PowerlawSplineRedshiftModel -/

theorem PLSpline.make_ok {n : ℕ} {dV : ℝ → ℝ} {zpe zinj : Arr ℝ} {m : PLSpline}
    (h : PLSpline.make n dV zpe zinj .logX = .ok m) :
    m.parent = ⟨dV, zpe, zinj⟩ ∧ ∃ s, logXInit n none none m.parent.zmin m.parent.zmax 4 = .ok s ∧
      m.interp = ⟨.logX, s, false⟩ := by
  unfold PLSpline.make at h
  simp only at h
  cases hI : Interp.make .logX n (ZModel.mk dV zpe zinj).zmin (ZModel.mk dV zpe zinj).zmax 4 false with
  | error e => rw [hI] at h; simp [bind, Except.bind] at h
  | ok I =>
    rw [hI] at h
    simp only [bind, Except.bind, pure, Except.pure, Except.ok.injEq] at h
    subst h
    exact ⟨rfl, Interp.logX_ok hI⟩

/-- the weight `dV/dz (1+z)^(lamb-1) exp(spline(z))` -/
def plWeight (dV : ℝ → ℝ) (lamb : ℝ) (s : Spline) (c : ℕ → ℝ) (z : ℝ) : ℝ :=
  dV z * (1 + z) ^ (lamb - 1) * Real.exp (logXSum s c z)

theorem eval_logX_false (s : Spline) (c : ℕ → ℝ) (x : ℝ) :
    (Interp.mk .logX s false).project (fun i => (Interp.mk .logX s false).bases i x) c = fin (logXSum s c x) := by
  simp [Interp.project, Interp.rawProject, Interp.bases, Interp.norm, einsumF_fin, logXSum]

theorem PLSpline.norm_eq {m : PLSpline} {s : Spline} (hI : m.interp = ⟨.logX, s, false⟩) (lamb : ℝ) (c : ℕ → ℝ)
    (hmin : 0 < m.parent.zmin) (hlt : m.parent.zmin < m.parent.zmax) :
    m.normalization lamb c = fin (trapz 1000
      (fun i => plWeight m.parent.dV lamb s c ((linspace m.parent.zmin m.parent.zmax 1000).get i))
      (linspace m.parent.zmin m.parent.zmax 1000).get) := by
  rw [← trapzF_fin]
  unfold PLSpline.normalization
  refine trapzF_congr (n := 1000) (fun j hj => ?_) (fun _ _ => rfl)
  have hz : 0 < m.parent.zs.get j := hmin.trans_le (linspace_mem hlt hj).1
  rw [hI, eval_logX_false, F.one_def, F.add_fin, F.pow_fin_pos (by linarith), F.mul_fin, F.exp, F.mul_fin]
  rfl

/-- **C35** (partial: PowerlawSplineRedshiftModel).  On both data sets a sample with `0 < z <= zmax` gets `d z`, where
`d` is proportional to `dV/dz (1+z)^(lamb-1) exp(spline(z))` and has unit trapezoid integral over the model's grid;
above `zmax` it gets exactly 0.  Missing: vanishing below `zmin` (false, see below). -/
theorem C35_powerlaw_spline_partial (n : ℕ) (dV : ℝ → ℝ) (zpe zinj : Arr ℝ) (m : PLSpline)
    (h : PLSpline.make n dV zpe zinj .logX = .ok m) (hmin : 0 < m.parent.zmin) (hlt : m.parent.zmin < m.parent.zmax)
    (hdV : ∀ x, m.parent.zmin ≤ x → x ≤ m.parent.zmax → 0 < dV x) (lamb : ℝ) (c : ℕ → ℝ) :
    ∃ s, logXInit n none none m.parent.zmin m.parent.zmax 4 = .ok s ∧
      ∃ d, UnitOnGrid (plWeight dV lamb s c) m.parent.zmin m.parent.zmax d ∧
      ∀ (twoD : Bool) (i : ℕ), 0 < (if twoD then zpe else zinj).get i →
        ((if twoD then zpe else zinj).get i ≤ m.parent.zmax →
          m.call twoD (if twoD then zpe else zinj) lamb c i = fin (d ((if twoD then zpe else zinj).get i))) ∧
        (m.parent.zmax < (if twoD then zpe else zinj).get i → m.call twoD (if twoD then zpe else zinj) lamb c i = 0) := by
  obtain ⟨hp, s, hs, hI⟩ := PLSpline.make_ok h
  have e1 : m.parent.dV = dV := by rw [hp]
  have e2 : m.parent.zpe = zpe := by rw [hp]
  have e3 : m.parent.zinj = zinj := by rw [hp]
  have hw : ∀ x, m.parent.zmin ≤ x → x ≤ m.parent.zmax → 0 < plWeight m.parent.dV lamb s c x := fun x h1 h2 =>
    mul_pos (mul_pos (by rw [e1]; exact hdV x h1 h2) (Real.rpow_pos_of_pos (by linarith) _)) (Real.exp_pos _)
  obtain ⟨hpos, hunit⟩ := unitOnGrid_of_pos hlt hw
  refine ⟨s, hs, _, by rw [← e1]; exact hunit, fun twoD i hx => ⟨fun hle => ?_, fun hgt => ?_⟩⟩
  · rw [PLSpline.call, if_pos hle, PLSpline.norm_eq hI lamb c hmin hlt, PLSpline.prob, hI, eval_logX_false, e2, e3,
      F.one_def, F.add_fin, F.pow_fin_pos (by linarith), F.mul_fin, F.exp, F.mul_fin, F.div_fin hpos.ne']
    congr 2
    cases twoD <;> simp [plWeight, ZModel.dVdz, e1, e2, e3]
  · rw [PLSpline.call, if_neg (not_le.2 hgt)]

/-- **C35 fails** below `zmin` for PowerlawSplineRedshiftModel: a sample with `0 < z < zmin` gets the strictly positive
value `dV(z) (1+z)^(lamb-1)` over the normalisation, although the spline is zero there. -/
theorem C35_powerlaw_below_zmin_fails (n : ℕ) (hn : 4 ≤ n) (dV : ℝ → ℝ) (zpe zinj : Arr ℝ) (m : PLSpline)
    (h : PLSpline.make n dV zpe zinj .logX = .ok m) (hmin : 0 < m.parent.zmin) (hlt : m.parent.zmin < m.parent.zmax)
    (hdV : ∀ x, 0 < x → 0 < dV x) (lamb : ℝ) (c : ℕ → ℝ) (twoD : Bool) (i : ℕ)
    (hx : 0 < (if twoD then zpe else zinj).get i) (hlow : (if twoD then zpe else zinj).get i < m.parent.zmin) :
    ∃ N : ℝ, 0 < N ∧ m.normalization lamb c = fin N ∧ m.call twoD (if twoD then zpe else zinj) lamb c i =
      fin (dV ((if twoD then zpe else zinj).get i) * (1 + (if twoD then zpe else zinj).get i) ^ (lamb - 1) / N) := by
  obtain ⟨hp, s, hs, hI⟩ := PLSpline.make_ok h
  have e1 : m.parent.dV = dV := by rw [hp]
  have e2 : m.parent.zpe = zpe := by rw [hp]
  have e3 : m.parent.zinj = zinj := by rw [hp]
  have hw : ∀ x, m.parent.zmin ≤ x → x ≤ m.parent.zmax → 0 < plWeight m.parent.dV lamb s c x := fun x h1 h2 =>
    mul_pos (mul_pos (by rw [e1]; exact hdV x (by linarith)) (Real.rpow_pos_of_pos (by linarith) _)) (Real.exp_pos _)
  obtain ⟨hpos, hunit⟩ := unitOnGrid_of_pos hlt hw
  refine ⟨_, hpos, PLSpline.norm_eq hI lamb c hmin hlt, ?_⟩
  have h0 : logXSum s c ((if twoD then zpe else zinj).get i) = 0 := by
    have : ∀ k, s.logXBases k ((if twoD then zpe else zinj).get i) = 0 := fun k =>
      C09_logX_zero_outside n 4 _ _ hmin hlt (by norm_num) hn s hs _ hx (Or.inl hlow) k
    rw [logXSum, einsum]; simp only [this, zero_mul, sum_const_zero]
  rw [PLSpline.call, if_pos (by linarith), PLSpline.norm_eq hI lamb c hmin hlt, PLSpline.prob, hI, eval_logX_false, e2, e3,
    h0, F.one_def, F.add_fin, F.pow_fin_pos (by linarith), F.mul_fin, F.exp, F.mul_fin, F.div_fin hpos.ne', Real.exp_zero,
    mul_one]
  congr 3
  cases twoD <;> simp [ZModel.dVdz, e1, e2, e3]

/-- a concrete instance: two PE redshifts, two injection redshifts, one of them below `zmin` -/
example : ∃ m, PLSpline.make 6 (fun z => z ^ 2) ⟨2, fun i => if i = 0 then 0.1 else 1⟩ ⟨2, fun i => if i = 0 then 0.05 else 2⟩ .logX = .ok m ∧
    m.parent.zmin = 0.1 ∧ m.parent.zmax = 1 := by
  obtain ⟨I, hI⟩ := Interp.make_exists .logX 6 (ZModel.mk (fun z => z ^ 2) ⟨2, fun i => if i = 0 then 0.1 else 1⟩
    ⟨2, fun i => if i = 0 then 0.05 else 2⟩).zmin (ZModel.mk (fun z => z ^ 2) ⟨2, fun i => if i = 0 then 0.1 else 1⟩
    ⟨2, fun i => if i = 0 then 0.05 else 2⟩).zmax 4 false (by norm_num) (by norm_num)
  refine ⟨⟨_, I⟩, by rw [PLSpline.make]; simp only [hI]; rfl, ?_, ?_⟩
  · simp only [ZModel.zmin, arrMin, List.range_succ, List.range_zero]
    norm_num
  · simp only [ZModel.zmax, arrMax, List.range_succ, List.range_zero]
    norm_num

/-- a concrete BSplineRedshift with overlapping data ranges inside the default spline range -/
example : ∃ m, ZSpline.make (fun z => z ^ 2) 6 [fin 0.1, fin 1] [fin 0.05, fin 2] [fin 0.01, fin 1] [fin 0.0025, fin 4]
      0.0001 2.3 .logX 3 true = .ok m ∧ m.zmin = 0.1 ∧ m.zmax = 1 := by
  obtain ⟨b, hb⟩ := Base1D.make_exists .logX 6 [fin 0.1, fin 1] [fin 0.05, fin 2] 0.0001 2.3 3 true (by norm_num)
  refine ⟨_, by rw [ZSpline.make, hb]; rfl, ?_, ?_⟩
  · simp [listMin, F.toReal]; norm_num
  · simp [listMax, F.toReal]; norm_num

end GW
end
