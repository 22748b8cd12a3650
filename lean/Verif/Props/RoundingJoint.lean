import Verif.Model.RoundingJoint
import Verif.Props.RoundingSplineWeights
import Verif.Props.RoundingRange
import Verif.Props.RoundingParametricExact

/-! # Property C156: the joint spline densities in single precision -/

open Finset
noncomputable section
open Classical
namespace GW
open F

variable {f : Arith} {κ : ℝ}

theorem SplineModel.OkXY.pos {d : SplineModel} {ε Λ : ℝ} (h : d.OkXY f κ Λ ε) (x : ℝ) : 0 < d.logDensity x := by
  obtain ⟨m, D, D', A, W, ho, -⟩ := h
  exact ho.pos x

/-- two masses and a slope: the quotient is at most `2¹⁰` either way, the slope at most 8 -/
structure PairOK (m1 m2 β : ℝ) : Prop where
  pos : 0 < m1
  low : (2⁻¹:ℝ) ^ 10 ≤ m2 / m1
  high : m2 / m1 ≤ 2 ^ 10
  slope : |β| ≤ 8

theorem PairOK.pow {m1 m2 β : ℝ} (r : PairOK m1 m2 β) : Rg 80 ((m2 / m1) ^ β) := by
  have q0 : 0 < m2 / m1 := lt_of_lt_of_le (by positivity) r.low
  have hl : |Real.log (m2 / m1)| ≤ 10 * Real.log 2 := by
    rw [abs_le]
    constructor
    · have := Real.log_le_log (by positivity) r.low
      rw [Real.log_pow, Real.log_inv] at this; push_cast at this; linarith
    · have := Real.log_le_log q0 r.high
      rw [Real.log_pow] at this; push_cast at this; exact this
  have h2 : 0 < Real.log 2 := Real.log_pos (by norm_num)
  have hb : |Real.log (m2 / m1) * β| ≤ 80 * Real.log 2 := by
    rw [abs_mul]
    calc |Real.log (m2 / m1)| * |β| ≤ 10 * Real.log 2 * 8 := mul_le_mul hl r.slope (abs_nonneg _) (by positivity)
      _ = _ := by ring
  rw [abs_le] at hb
  have e : Real.exp (80 * Real.log 2) = 2 ^ 80 := by
    rw [show (80:ℝ) * Real.log 2 = ((80:ℕ):ℝ) * Real.log 2 by norm_num, Real.exp_nat_mul, Real.exp_log (by norm_num)]
  rw [Real.rpow_def_of_pos q0]
  constructor
  · rw [inv_pow, ← e, ← Real.exp_neg]; exact Real.exp_le_exp.2 hb.1
  · rw [← e]; exact Real.exp_le_exp.2 hb.2

/-- the power of the computed mass ratio -/
theorem Arith.Contract.pair_pow (C : f.Contract κ) {pw : F → F → F} (P : PowContract pw κ) {m1 m2 β : ℝ} (r : PairOK m1 m2 β) :
    ∃ q z, f.r (fin m2 / fin m1) = fin q ∧ 0 < q ∧ pw (fin q) (fin β) = fin z ∧ Rel (κ * (2 * |β| + 1)) ((m2 / m1) ^ β) z := by
  have hκ := C.pos
  have hk : κ ≤ 1 / 4096 := C.small.trans (by norm_num)
  have q0 : 0 < m2 / m1 := lt_of_lt_of_le (by positivity) r.low
  obtain ⟨q, eq, rq⟩ := C.rel_round (Rel.refl (x := m2 / m1)) (by norm_num) (le_trans (by norm_num) r.low) (r.high.trans (by norm_num))
  have rq' := rq
  obtain ⟨θ, hθ, e⟩ := rq
  have hq : 0 < q := by rw [e]; exact mul_pos q0 (Real.exp_pos _)
  have rp : Rel (κ * (2 * |β|)) ((m2 / m1) ^ β) (q ^ β) := by
    refine ⟨θ * β, ?_, ?_⟩
    · rw [abs_mul]
      calc |θ| * |β| ≤ (0 + 2 * κ) * |β| := mul_le_mul_of_nonneg_right hθ (abs_nonneg _)
        _ = _ := by ring
    · rw [e, Real.mul_rpow q0.le (Real.exp_pos _).le, ← Real.exp_mul]
  have hβ : κ * (2 * |β|) ≤ 1 := by
    have := mul_le_mul hk (show 2 * |β| ≤ 16 by linarith [r.slope]) (by positivity) (by norm_num)
    linarith
  have wq := rq'.within q0.le
  have wp := rp.within r.pow.pos.le
  have ex : ∀ {t : ℝ}, 0 ≤ t → t ≤ 1 → (1:ℝ) / 4 ≤ Real.exp (-t) ∧ Real.exp t ≤ 4 := fun {t} h0 h1 => by
    have a : Real.exp t ≤ 4 := (Real.exp_le_exp.2 h1).trans (by linarith [Real.exp_one_lt_d9])
    refine ⟨?_, a⟩
    rw [Real.exp_neg, one_div]; exact inv_anti₀ (Real.exp_pos _) a
  have e1 := ex (t := 0 + 2 * κ) (by linarith) (by linarith)
  have e2 := ex (t := κ * (2 * |β|)) (by positivity) hβ
  have b1 : 1 / 4 * (2⁻¹:ℝ) ^ 10 ≤ q := (mul_le_mul e1.1 r.low (by positivity) (Real.exp_pos _).le).trans wq.1
  have b2 : q ≤ 4 * 2 ^ 10 := wq.2.trans (mul_le_mul e1.2 r.high q0.le (by norm_num))
  have b3 : 1 / 4 * (2⁻¹:ℝ) ^ 80 ≤ q ^ β := (mul_le_mul e2.1 r.pow.1 (by positivity) (Real.exp_pos _).le).trans wp.1
  have b4 : q ^ β ≤ 4 * 2 ^ 80 := wp.2.trans (mul_le_mul e2.2 r.pow.2 r.pow.pos.le (by norm_num))
  obtain ⟨z, ez, wz⟩ := P q β (le_trans (by unfold flLo; norm_num) b1) (b2.trans (by unfold flHi; norm_num)) (le_trans (by unfold flLo; norm_num) b3) (b4.trans (by unfold flHi; norm_num))
  refine ⟨q, z, ?_, hq, ez, (rp.trans (Rel.of_within (lt_of_lt_of_le (by positivity) b3) wz)).mono (by linarith)⟩
  rw [div_fin r.pos.ne']; exact eq

/-- **C156** (component masses, independent).  `ε` is the error of one spline density. -/
theorem C156_independent (C : f.Contract κ) {pw : F → F → F} (P : PowContract pw κ) {d1 d2 : SplineModel} {ε Λ m1 m2 β : ℝ} (h1 : d1.OkXY f κ Λ ε) (h2 : d2.OkXY f κ Λ ε)
    (x1 : (d1.xmin ≤ m1 ∧ m1 ≤ d1.xmax) ∧ d1.s.LogPoint f Λ m1) (x2 : (d2.xmin ≤ m2 ∧ m2 ≤ d2.xmax) ∧ d2.s.LogPoint f Λ m2) (r : PairOK m1 m2 β) (hε0 : 0 ≤ ε) (hε : 2 * ε + κ * (2 * |β| + 5) ≤ 1)
    (s1 : Rg 122 (d1.logDensity m1 * d2.logDensity m2)) (s2 : Rg 122 (d1.logDensity m1 * d2.logDensity m2 * (m2 / m1) ^ β)) :
    ∃ p, independentComponentMassesR f pw d1 d2 m1 m2 (fin β) = fin p ∧ Within (2 * ε + κ * (2 * |β| + 5)) (d1.logDensity m1 * d2.logDensity m2 * (m2 / m1) ^ β) p := by
  have hκ := C.pos
  have hb : 0 ≤ κ * |β| := by positivity
  have hx : κ * (2 * |β| + 5) = 2 * (κ * |β|) + 5 * κ := by ring
  have hy : κ * (2 * |β| + 1) = 2 * (κ * |β|) + κ := by ring
  rw [hx] at hε ⊢
  obtain ⟨a, ea, ra⟩ := C.callXY h1 (by linarith) x1
  obtain ⟨b, eb, rb⟩ := C.callXY h2 (by linarith) x2
  obtain ⟨q, z, eq, -, ez, rz⟩ := C.pair_pow P r
  rw [hy] at rz
  obtain ⟨t, et, rt⟩ := C.rel_round (ra.mul rb) (by linarith) s1.1 s1.2
  obtain ⟨p, ep, rp⟩ := C.rel_round (rt.mul rz) (by linarith) s2.1 s2.2
  refine ⟨p, ?_, (rp.within s2.pos.le).mono (by linarith) s2.pos.le⟩
  unfold independentComponentMassesR
  rw [ea, eb, mul_fin, et, eq, ez, mul_fin, ep]

/-- **C156** (component masses, identical).  Where the computed ratio is at most one; where it is above one the density is exactly zero. -/
theorem C156_iid (C : f.Contract κ) {pw : F → F → F} (P : PowContract pw κ) {d : SplineModel} {ε Λ m1 m2 β q : ℝ} (h : d.OkXY f κ Λ ε)
    (x1 : (d.xmin ≤ m1 ∧ m1 ≤ d.xmax) ∧ d.s.LogPoint f Λ m1) (x2 : (d.xmin ≤ m2 ∧ m2 ≤ d.xmax) ∧ d.s.LogPoint f Λ m2) (r : PairOK m1 m2 β) (hε0 : 0 ≤ ε) (hε : 2 * ε + κ * (2 * |β| + 5) ≤ 1)
    (s1 : Rg 122 (d.logDensity m1 * d.logDensity m2)) (s2 : Rg 122 (d.logDensity m1 * d.logDensity m2 * (m2 / m1) ^ β)) (eq : f.r (fin m2 / fin m1) = fin q) :
    (q ≤ 1 → ∃ p, iidComponentMassesR f pw d m1 m2 (fin β) = fin p ∧ Within (2 * ε + κ * (2 * |β| + 5)) (d.logDensity m1 * d.logDensity m2 * (m2 / m1) ^ β) p) ∧
    (1 < q → iidComponentMassesR f pw d m1 m2 (fin β) = fin 0) := by
  obtain ⟨q', z, eq', hq0, ez, -⟩ := C.pair_pow P r
  obtain rfl : q = q' := by rw [eq] at eq'; exact F.fin.inj eq'
  constructor
  · intro hq1
    obtain ⟨p, ep, wp⟩ := C156_independent C P h h x1 x2 r hε0 hε s1 s2
    refine ⟨p, ?_, wp⟩
    rw [← ep]
    have hn : ¬ (lt (fin q) 0 ∨ gt (fin q) 1) := by
      rw [zero_def, one_def]; simp only [lt_fin, gt_fin]; push Not; exact ⟨hq0.le, hq1⟩
    unfold iidComponentMassesR independentComponentMassesR
    simp only [eq, if_neg hn]
  · intro hq1
    have hn : lt (fin q) 0 ∨ gt (fin q) 1 := .inr (by rw [one_def]; simp only [gt_fin]; exact hq1)
    unfold iidComponentMassesR
    simp only [eq, if_pos hn]
    rw [ez, zero_def, mul_fin, zero_mul]
    exact C.rd_zero

/-- **C156** (ratios in single precision).  The computed ratio of a smaller to a larger mass is at most one, so no sample with `m2 ≤ m1` is lost. -/
theorem C156_ratio_le {m1 m2 q : ℝ} (h1 : 0 < m1) (h : m2 ≤ m1) (e : binary32.r (fin m2 / fin m1) = fin q) : q ≤ 1 := by
  rw [div_fin h1.ne'] at e
  have e1 := (rd32_fin_iff.1 (show rd32 (m2 / m1) = fin q from e)).1
  have r1 : rd32 1 = fin 1 := by have := binary32_contract.rd_nat 1 (by norm_num); rw [Nat.cast_one] at this; exact this
  rw [e1, (rd32_fin_iff.1 r1).1]
  exact near32_mono ((div_le_one h1).2 h)

/-- **C156** (spline in mass, power law in the ratio). -/
theorem C156_powerlaw_ratio (C : f.Contract κ) {pw : F → F → F} (P : PowContract pw κ) {d : SplineModel} {ε Λ m1 q β mmin : ℝ} (h : d.OkXY f κ Λ ε)
    (x1 : (d.xmin ≤ m1 ∧ m1 ≤ d.xmax) ∧ d.s.LogPoint f Λ m1) (hm : 0 < m1) (rq : RatioRange κ β (mmin / m1) q) (hε0 : 0 ≤ ε)
    (hε : ε + κ * ratioErr (1 + β) (Real.log (1 / (mmin / m1))) + 2 * κ ≤ 1 / 2) (s : Rg 122 (d.logDensity m1 * plDensity q β (mmin / m1) 1)) :
    ∃ p, splinePrimaryPowerlawRatioR f pw d m1 q (fin β) (fin mmin) = fin p ∧
      Within (ε + κ * ratioErr (1 + β) (Real.log (1 / (mmin / m1))) + 2 * κ) (d.logDensity m1 * plDensity q β (mmin / m1) 1) p := by
  have hκ := C.pos
  obtain ⟨b, eb, wb, pb⟩ := C147_ratio C P hm rq (by linarith)
  have hr0 : 0 ≤ κ * ratioErr (1 + β) (Real.log (1 / (mmin / m1))) := by
    have := wb.1.trans wb.2
    by_contra hc
    push Not at hc
    have : Real.exp (-(κ * ratioErr (1 + β) (Real.log (1 / (mmin / m1))))) ≤ Real.exp (κ * ratioErr (1 + β) (Real.log (1 / (mmin / m1)))) := le_of_mul_le_mul_right this pb
    linarith [Real.exp_le_exp.1 this]
  obtain ⟨a, ea, ra⟩ := C.callXY h (by linarith) x1
  obtain ⟨p, ep, rp⟩ := C.rel_round (ra.mul (Rel.of_within pb wb)) (by linarith) s.1 s.2
  refine ⟨p, ?_, rp.within s.pos.le⟩
  unfold splinePrimaryPowerlawRatioR
  rw [ea, eb, mul_fin, ep]

/-- **C156** (power law and peak in mass, spline in the ratio). -/
theorem C156_spline_ratio (C : f.Contract κ) {pw : F → F → F} (P : PowContract pw κ) {erf' : F → F} (E : ErfContract erf' κ) {d : SplineModel} {ε K m1 q α mmin mmax mu sig lam : ℝ} (h : d.OkY κ ε) (hx : d.Point q)
    (r : PeakOK κ K m1 α mmin mmax mu sig lam) (hε0 : 0 ≤ ε) (hK0 : 0 ≤ K) (hε : κ * (K + 6) + ε + 2 * κ ≤ 1) (s : Rg 122 (peakDensity m1 α mmin mmax mu sig lam * d.density q)) :
    ∃ p, plpeakPrimarySplineRatioR f pw erf' d m1 q (fin α) (fin mmin) (fin mmax) (fin mu) (fin sig) (fin lam) = fin p ∧
      Within (κ * (K + 6) + ε + 2 * κ) (peakDensity m1 α mmin mmax mu sig lam * d.density q) p := by
  have hκ := C.pos
  have hK : 0 ≤ κ * (K + 6) := by positivity
  obtain ⟨a, ea, wa⟩ := C147_primary C P E r (by linarith)
  obtain ⟨b, eb, rb⟩ := C.callY h (by linarith) hx
  obtain ⟨p, ep, rp⟩ := C.rel_round ((Rel.of_within (lt_of_lt_of_le (by positivity) r.size0) wa).mul rb) (by linarith) s.1 s.2
  refine ⟨p, ?_, rp.within s.pos.le⟩
  unfold plpeakPrimarySplineRatioR
  rw [ea, eb, mul_fin, ep]

/-- **C156** (symmetric effective spin). -/
theorem C156_symmetric (C : f.Contract κ) {d : SplineModel} {ε x : ℝ} (h : d.OkY κ ε) (hx : d.Point x) (hε : ε ≤ 1) (s : Rg 122 (1 / 2 * d.density x)) :
    ∃ p, symmetricChiEffectiveR f d x = fin p ∧ Within (ε + 2 * κ) (1 / 2 * d.density x) p := by
  obtain ⟨b, eb, rb⟩ := C.callY h hε hx
  obtain ⟨p, ep, rp⟩ := C.rel_round ((Rel.refl (x := 1 / 2)).mul rb) (by linarith) s.1 s.2
  refine ⟨p, ?_, (rp.within s.pos.le).mono (by linarith) s.pos.le⟩
  unfold symmetricChiEffectiveR
  rw [eb, mul_fin, ep]

/-- **C156.** Without rounding these are the products the classes document. -/
theorem C156_exact {d1 d2 dq : SplineModel} {ε Λ m1 m2 q β : ℝ} (h1 : d1.OkXY Arith.exact κ Λ ε) (h2 : d2.OkXY Arith.exact κ Λ ε) (hq : dq.OkY κ ε)
    (x1 : (d1.xmin ≤ m1 ∧ m1 ≤ d1.xmax) ∧ d1.s.LogPoint Arith.exact Λ m1) (x2 : (d2.xmin ≤ m2 ∧ m2 ≤ d2.xmax) ∧ d2.s.LogPoint Arith.exact Λ m2) (xq : dq.Point q)
    (alpha mmin mmax mean sd frac beta : F) :
    independentComponentMassesR Arith.exact F.pow d1 d2 m1 m2 (fin β) = fin (d1.logDensity m1 * d2.logDensity m2 * (m2 / m1) ^ β) ∧
    splinePrimaryPowerlawRatioR Arith.exact F.pow d1 m1 q beta mmin = fin (d1.logDensity m1) * powerlaw_pdf (fin q) beta (mmin / fin m1) 1 ∧
    plpeakPrimarySplineRatioR Arith.exact F.pow erfF dq m1 q alpha mmin mmax mean sd frac = plpeak_primary_pdf (fin m1) alpha mmin mmax mean sd frac * fin (dq.density q) ∧
    symmetricChiEffectiveR Arith.exact dq q = fin (1 / 2 * dq.density q) := by
  have flo := flLo_pos
  have pt : ∀ {s : Spline} {x : ℝ}, s.LogPoint Arith.exact Λ x → 0 < x ∧ ¬ s.outside (Real.log x) := by
    intro s x hx
    have h0 : 0 < x := flo.trans_le hx.low
    obtain ⟨y, ey, hy⟩ := hx.inside
    have : Arith.exact.log (fin x) = fin (Real.log x) := F.log_fin h0
    rw [this] at ey
    cases ey
    exact ⟨h0, hy⟩
  have key : ∀ {m : SplineModel} {x : ℝ}, m.OkXY Arith.exact κ Λ ε → (m.xmin ≤ x ∧ x ≤ m.xmax) ∧ m.s.LogPoint Arith.exact Λ x → m.callXYR Arith.exact x = fin (m.logDensity x) := by
    rintro m x ⟨k, D, D', A, W, ho, -⟩ hx
    unfold SplineModel.callXYR
    rw [if_pos hx.1]
    exact (C149_exact ho.dens.knots.order.1 m.o ho.dens.covers m.og ho.cover (fun j hj => pt (ho.inside j hj)) m.c (pt hx.2)).1
      (trapz_pos_of m.og (fun _ _ => Real.exp_pos _) fun j hj => (ho.steps j hj).1).ne'
  have keyY : dq.callYR Arith.exact q = fin (dq.density q) := by
    obtain ⟨k, D, D', A, ho, -⟩ := hq
    unfold SplineModel.callYR
    rw [if_pos xq.1]
    exact C144_exact ho.dens.knots.order.1 dq.o ho.dens.covers dq.og ho.cover (fun j hj => (ho.inside j hj).inside) dq.c
      (trapz_pos_of dq.og (fun _ _ => Real.exp_pos _) fun j hj => (ho.steps j hj).1).ne' xq.2.inside
  have p1 := (pt x1.2).1
  have p2 := (pt x2.2).1
  refine ⟨?_, ?_, ?_, ?_⟩
  · unfold independentComponentMassesR
    rw [key h1 x1, key h2 x2, div_fin p1.ne', exact_r, exact_r, exact_r, F.pow_fin_pos (div_pos p2 p1), mul_fin, mul_fin]
  · unfold splinePrimaryPowerlawRatioR
    rw [key h1 x1, exact_r, exact_r, C140_exact]
  · unfold plpeakPrimarySplineRatioR
    rw [keyY, exact_r, (C147_exact (fin m1) 0 alpha 0 mmin mmax mean sd frac 0 0 0 0 0 0 0 0 0 0).1]
  · unfold symmetricChiEffectiveR
    rw [keyY, exact_r, mul_fin]

theorem logHatModel_okXY {c : ℕ → ℝ} (hc : ∀ i < 3, |c i| ≤ 1) : (logHatModel c).OkXY binary32 (2⁻¹ ^ 23) 3 (2⁻¹ ^ 15) :=
  ⟨3, 2, 1, 1, 1, logHatModel_ok hc, by unfold logSplineErr; simp only [logHatModel, hatSpline]; norm_num⟩

/-- identical component masses in single precision: any two masses between 4 and 12, the smaller one second, slope up to 4, coefficients of size at most one; relative error at most `2⁻¹³` -/
example {c : ℕ → ℝ} (hc : ∀ i < 3, |c i| ≤ 1) {m1 m2 β : ℝ} (h4 : 4 ≤ m2) (h : m2 ≤ m1) (h12 : m1 ≤ 12) (hβ : |β| ≤ 4) :
    ∃ p, iidComponentMassesR binary32 pow32 (logHatModel c) m1 m2 (fin β) = fin p ∧ Within (2⁻¹ ^ 13) ((logHatModel c).logDensity m1 * (logHatModel c).logDensity m2 * (m2 / m1) ^ β) p := by
  have hm1 : 0 < m1 := by linarith
  have r : PairOK m1 m2 β := ⟨hm1, by rw [le_div_iff₀ hm1]; norm_num; linarith, by rw [div_le_iff₀ hm1]; norm_num; linarith, by linarith⟩
  obtain ⟨a0, a1⟩ := logHatModel_bounds hc m1
  obtain ⟨b0, b1⟩ := logHatModel_bounds hc m2
  have s1 : Rg 14 ((logHatModel c).logDensity m1 * (logHatModel c).logDensity m2) :=
    ⟨le_trans (by norm_num) (mul_le_mul a0 b0 (by norm_num) (by linarith)), (mul_le_mul a1 b1 (by linarith) (by norm_num)).trans (by norm_num)⟩
  have s2 : Rg 122 ((logHatModel c).logDensity m1 * (logHatModel c).logDensity m2 * (m2 / m1) ^ β) :=
    ⟨le_trans (by norm_num) (mul_le_mul s1.1 r.pow.1 (by positivity) s1.pos.le), (mul_le_mul s1.2 r.pow.2 r.pow.pos.le (by positivity)).trans (by norm_num)⟩
  obtain ⟨q, z, eq, -, -, -⟩ := binary32_contract.pair_pow pow32_contract r
  have hε : 2 * (2⁻¹:ℝ) ^ 15 + 2⁻¹ ^ 23 * (2 * |β| + 5) ≤ 2⁻¹ ^ 13 := by norm_num; linarith
  obtain ⟨p, ep, wp⟩ := (C156_iid binary32_contract pow32_contract (logHatModel_okXY hc) ⟨⟨by show (4:ℝ) ≤ m1; linarith, by show m1 ≤ (12:ℝ); linarith⟩, hat_logPoint (by linarith) (by linarith)⟩
    ⟨⟨by show (4:ℝ) ≤ m2; linarith, by show m2 ≤ (12:ℝ); linarith⟩, hat_logPoint (by linarith) (by linarith)⟩ r (by positivity) (hε.trans (by norm_num))
    ⟨le_trans (by norm_num) s1.1, s1.2.trans (by norm_num)⟩ s2 eq).1 (C156_ratio_le hm1 h eq)
  exact ⟨p, ep, wp.mono hε s2.pos.le⟩

/-- the symmetric effective spin at any point of [-1, 1] -/
example {c : ℕ → ℝ} (hc : ∀ i < 3, |c i| ≤ 1) {x : ℝ} (h0 : -1 ≤ x) (h1 : x ≤ 1) :
    ∃ p, symmetricChiEffectiveR binary32 (hatModel (-1) 1 c) x = fin p ∧ Within (2⁻¹ ^ 14) (1 / 2 * (hatModel (-1) 1 c).density x) p := by
  obtain ⟨b0, b1⟩ := hatModel_bounds hatRange_tilt hc h0 (by linarith)
  obtain ⟨p, ep, wp⟩ := C156_symmetric binary32_contract (hatModel_ok hatRange_tilt hc) (hatModel_point hatRange_tilt c h0 (by linarith)) (by norm_num) ⟨by norm_num; linarith, by norm_num; linarith⟩
  exact ⟨p, ep, wp.mono (by norm_num) (by linarith)⟩

end GW
end
