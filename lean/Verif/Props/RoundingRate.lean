import Verif.Model.RoundingRate
import Verif.Props.RoundingLogSplineExact

/-! # Property C157: the spline in redshift in rounded arithmetic -/

open Finset
noncomputable section
open Classical
namespace GW
open F

variable {f : Arith} {κ : ℝ}

/-- redshift and comoving volume element of a sample or a grid point -/
structure RateOK (z V : ℝ) : Prop where
  z0 : 0 ≤ z
  z1 : z ≤ 15
  V0 : (2⁻¹:ℝ) ^ 12 ≤ V
  V1 : V ≤ 2 ^ 12

/-- the unnormalised rate `dV/dz / (1 + z) · exp(e)` -/
def rateOf (V z e : ℝ) : ℝ := V / (1 + z) * Real.exp e

/-- error of the unnormalised rate -/
def rateErr (s : Spline) (D : ℕ) (A W Λ κ : ℝ) : ℝ := logSplineErr s D A W Λ κ + (10 + A) * κ

theorem RateOK.quot {z V : ℝ} (r : RateOK z V) : (2⁻¹:ℝ) ^ 16 ≤ V / (1 + z) ∧ V / (1 + z) ≤ 2 ^ 12 := by
  have h0 := r.z0
  have h1 := r.z1
  have v0 := r.V0
  have v1 := r.V1
  constructor
  · rw [le_div_iff₀ (by linarith)]
    exact le_trans (mul_le_mul_of_nonneg_left (show 1 + z ≤ 16 by linarith) (by positivity)) (le_trans (by norm_num) v0)
  · rw [div_le_iff₀ (by linarith)]
    exact v1.trans (le_mul_of_one_le_right (by positivity) (by linarith))

/-- `1 + z`, rounded -/
theorem Arith.Contract.one_add (C : f.Contract κ) {z V : ℝ} (r : RateOK z V) : ∃ w, f.r (1 + fin z) = fin w ∧ Rel (2 * κ) (1 + z) w ∧ 0 < w := by
  have h0 := r.z0
  have h1 := r.z1
  obtain ⟨w, ew, ww⟩ := C.rel_round (Rel.refl (x := 1 + z)) (by norm_num) (le_trans (by norm_num) (show (1:ℝ) ≤ 1 + z by linarith)) (le_trans (show 1 + z ≤ 16 by linarith) (by norm_num))
  exact ⟨w, by rw [show (1:F) + fin z = fin (1 + z) from add_fin 1 z, ew], ww.mono (by linarith), ww.pos (by linarith)⟩

/-- the exponent at a point of the grid: the sum itself, without the multiplication by the norm 1 -/
theorem Arith.Contract.grid_exponent (C : f.Contract κ) {s : Spline} {m D : ℕ} {o : RTree s.N} {c : ℕ → ℝ} {A W Λ : ℝ} (h : s.DensityOK m o D c A κ) (hs : s.Steady W) {x : ℝ} (hx : s.LogPoint f Λ x)
    (hA0 : 0 ≤ A) (hA : A ≤ 78) (hε : (10 * s.order + 5 + 2 * D) * κ * A + κ ≤ 1) :
    ∃ e, einsumR f o (fun i => s.logXBasesR f i x) (fun i => fin (c i)) = fin e ∧ |e - s.logExpo c x| ≤ logSplineErr s D A W Λ κ + (3 + A) * κ ∧ |e| ≤ 80 := by
  have hκ := C.pos
  obtain ⟨v, ev, hv, lv⟩ := C.log_point hs hA0 h.coefs hx
  obtain ⟨e, ee, he, ha⟩ := C.expo h hv
  have hAκ : 0 ≤ A * κ := by positivity
  refine ⟨e, ?_, ?_, ?_⟩
  · rw [← ee]
    unfold Spline.logXBasesR Spline.logYBasesR
    simp only [ev, if_neg hv.inside]
  · have : e - s.logExpo c x = (e - s.expo c v) + (s.expo c v - s.logExpo c x) := by ring
    rw [this]
    refine (abs_add_le _ _).trans ?_
    unfold logSplineErr
    linarith
  · have : e = (e - s.expo c v) + s.expo c v := by ring
    rw [this]
    exact (abs_add_le _ _).trans (by linarith)

/-- a computed exponential: error of the exponent plus one unit -/
theorem Arith.Contract.exp_rel (C : f.Contract κ) {e E δ : ℝ} (he : |e - E| ≤ δ) (hb : |e| ≤ 80) : ∃ y, f.exp (fin e) = fin y ∧ Rel (δ + κ) (Real.exp E) y := by
  obtain ⟨y, ey, wy⟩ := C.exp_norm e hb
  exact ⟨y, ey, (Rel.of_within (Real.exp_pos _) (Within.of_abs_log he)).trans (Rel.of_within (Real.exp_pos _) wy)⟩

/-- the integrand of the normalisation -/
theorem C157_grid (C : f.Contract κ) {s : Spline} {m D : ℕ} {o : RTree s.N} {c : ℕ → ℝ} {A W Λ : ℝ} (h : s.DensityOK m o D c A κ) (hs : s.Steady W)
    {z V : ℝ} (hz : s.LogPoint f Λ z) (r : RateOK z V) (hA0 : 0 ≤ A) (hA : A ≤ 30)
    (hsz : (2⁻¹:ℝ) ^ 44 ≤ rateOf V z (s.logExpo c z) ∧ rateOf V z (s.logExpo c z) ≤ 2 ^ 44) (hε : rateErr s D A W Λ κ ≤ 1) :
    ∃ p, f.r (f.r (fin V / f.r (1 + fin z)) * f.exp (einsumR f o (fun i => s.logXBasesR f i z) (fun i => fin (c i)))) = fin p ∧
      Rel (rateErr s D A W Λ κ) (rateOf V z (s.logExpo c z)) p := by
  have hκ := C.pos
  have hΛ : 0 ≤ Λ := (abs_nonneg _).trans hz.lam
  obtain ⟨hE0, hL0⟩ := logSplineErr_nonneg (D := D) hκ hs hA0 hΛ
  have hlE : logSplineErr s D A W Λ κ = (10 * s.order + 5 + 2 * D) * κ * A + 2 * A / W * (1 + Λ) * κ := rfl
  have hAκ : 0 ≤ A * κ := by positivity
  unfold rateErr at hε ⊢
  obtain ⟨w, ew, rw', w0⟩ := C.one_add r
  obtain ⟨q0, q1⟩ := r.quot
  obtain ⟨q, eq, rq⟩ := C.rel_round ((Rel.refl (x := V)).div rw') (by linarith) (by refine le_trans ?_ q0; norm_num) (q1.trans (by norm_num))
  obtain ⟨e, ee, he, hb⟩ := C.grid_exponent h hs hz hA0 (by linarith) (by rw [hlE] at hε; linarith)
  obtain ⟨y, ey, ry⟩ := C.exp_rel he hb
  unfold rateOf at hsz ⊢
  obtain ⟨p, ep, rp⟩ := C.rel_round (rq.mul ry) (by linarith) (by refine le_trans ?_ hsz.1; norm_num) (hsz.2.trans (by norm_num))
  refine ⟨p, ?_, rp.mono (by linarith)⟩
  rw [ew, div_fin w0.ne', eq, ee, ey, mul_fin, ep]

/-- the numerator of the call, for an exponent within `δ` of `E` -/
theorem C157_numerator (C : f.Contract κ) {z V e E δ : ℝ} (r : RateOK z V) (he : |e - E| ≤ δ) (hb : |e| ≤ 80) (hE : |E| ≤ 30) (hδ : δ + 7 * κ ≤ 1) :
    ∃ p, f.r (f.r (f.exp (fin e) * fin V) / f.r (1 + fin z)) = fin p ∧ Rel (δ + 7 * κ) (rateOf V z E) p := by
  have hκ := C.pos
  obtain ⟨w, ew, rw', w0⟩ := C.one_add r
  obtain ⟨q0, q1⟩ := r.quot
  obtain ⟨y, ey, ry⟩ := C.exp_rel he hb
  obtain ⟨b1, b2⟩ := exp_bounds le_rfl hE
  obtain ⟨v, ev, rv⟩ := C.rel_round (ry.mul (Rel.refl (x := V))) (by linarith)
    (by calc (2⁻¹:ℝ) ^ 122 ≤ 2⁻¹ ^ 44 * 2⁻¹ ^ 12 := by norm_num
          _ ≤ _ := mul_le_mul b1 r.V0 (by positivity) (Real.exp_pos _).le)
    (by calc _ ≤ (2:ℝ) ^ 44 * 2 ^ 12 := mul_le_mul b2 r.V1 (le_trans (by positivity) r.V0) (by positivity)
          _ ≤ _ := by norm_num)
  have e1 : Real.exp E * V / (1 + z) = rateOf V z E := by unfold rateOf; ring
  have rd := rv.div rw'
  rw [e1] at rd
  obtain ⟨p, ep, rp⟩ := C.rel_round rd (by linarith)
    (by unfold rateOf
        calc (2⁻¹:ℝ) ^ 122 ≤ 2⁻¹ ^ 16 * 2⁻¹ ^ 44 := by norm_num
          _ ≤ _ := mul_le_mul q0 b1 (by positivity) (le_trans (by positivity) q0))
    (by unfold rateOf
        calc _ ≤ (2:ℝ) ^ 12 * 2 ^ 44 := mul_le_mul q1 b2 (Real.exp_pos _).le (by positivity)
          _ ≤ _ := by norm_num)
  refine ⟨p, ?_, rp.mono (by linarith)⟩
  rw [ey, mul_fin, ev, ew, div_fin w0.ne', ep]

/-- what the grid of redshifts has to satisfy: points in the range of the spline, rates of ordinary size, steps of ordinary length -/
structure RateGrid (f : Arith) (s : Spline) (c : ℕ → ℝ) (Λ : ℝ) {n : ℕ} (og : RTree n) (D' : ℕ) (zs V_ : ℕ → ℝ) : Prop where
  covers : og.Covers
  depth : og.depth ≤ D'
  points : n ≤ 2 ^ 12
  inside : ∀ j ≤ n, s.LogPoint f Λ (zs j)
  ok : ∀ j ≤ n, RateOK (zs j) (V_ j)
  size : ∀ j ≤ n, (2⁻¹:ℝ) ^ 44 ≤ rateOf (V_ j) (zs j) (s.logExpo c (zs j)) ∧ rateOf (V_ j) (zs j) (s.logExpo c (zs j)) ≤ 2 ^ 44
  steps : ∀ j < n, (2⁻¹:ℝ) ^ 18 ≤ zs (j + 1) - zs j ∧ zs (j + 1) - zs j ≤ 2 ^ 18

/-- the exact normalisation -/
def rateNorm (s : Spline) (c : ℕ → ℝ) (n : ℕ) (zs V_ : ℕ → ℝ) : ℝ := trapz (n + 1) (fun j => rateOf (V_ j) (zs j) (s.logExpo c (zs j))) zs

/-- **C157.** The normalisation of `BSplineRedshift` in rounded arithmetic. -/
theorem C157_norm (C : f.Contract κ) {s : Spline} {m D : ℕ} {o : RTree s.N} {c : ℕ → ℝ} {A W Λ : ℝ} (h : s.DensityOK m o D c A κ) (hs : s.Steady W)
    {n D' : ℕ} {og : RTree n} {zs V_ : ℕ → ℝ} (g : RateGrid f s c Λ og D' zs V_) (hA0 : 0 ≤ A) (hA : A ≤ 30) (hε : rateErr s D A W Λ κ + (8 + 2 * D') * κ ≤ 1) :
    ∃ T, bsplineRedshiftNormR f s o (fun i => fin (c i)) og zs (fun j => fin (V_ j)) = fin T ∧ Rel (rateErr s D A W Λ κ + (8 + 2 * D') * κ) (rateNorm s c n zs V_) T ∧
      (2⁻¹:ℝ) ^ 63 ≤ rateNorm s c n zs V_ ∧ rateNorm s c n zs V_ ≤ 2 ^ 75 := by
  have hκ := C.pos
  have hD' : (0:ℝ) ≤ D' * κ := mul_nonneg (Nat.cast_nonneg _) hκ.le
  have hΛ : 0 ≤ Λ := (abs_nonneg _).trans (g.inside 0 (Nat.zero_le _)).lam
  obtain ⟨hE0, hL0⟩ := logSplineErr_nonneg (D := D) hκ hs hA0 hΛ
  have he0 : 0 ≤ rateErr s D A W Λ κ := by
    unfold rateErr logSplineErr
    have : 0 ≤ (10 + A) * κ := by positivity
    linarith
  exact C.trapz_rel og g.covers g.depth g.points he0 (fun j hj => C157_grid C h hs (g.inside j hj) (g.ok j hj) hA0 hA (g.size j hj) (by linarith)) g.size g.steps hε

/-- dividing by the normalisation -/
theorem C157_quotient (C : f.Contract κ) {ε δ x y t T : ℝ} (hx : Rel ε x y) (ht : Rel δ t T) (h : ε + δ ≤ 1) (x0 : (2⁻¹:ℝ) ^ 44 ≤ x) (x1 : x ≤ 2 ^ 44) (t0 : (2⁻¹:ℝ) ^ 63 ≤ t) (t1 : t ≤ 2 ^ 75) :
    ∃ p, f.r (fin y / fin T) = fin p ∧ Rel (ε + δ + 2 * κ) (x / t) p := by
  have tp : 0 < t := lt_of_lt_of_le (by positivity) t0
  obtain ⟨p, ep, rp⟩ := C.rel_round (hx.div ht) h (by
      rw [le_div_iff₀ tp]
      exact le_trans (mul_le_mul_of_nonneg_left t1 (by positivity)) (le_trans (by norm_num) x0)) (by
      rw [div_le_iff₀ tp]
      exact x1.trans (le_trans (by norm_num) (mul_le_mul_of_nonneg_left t0 (by positivity))))
  exact ⟨p, by rw [div_fin (ht.pos tp).ne', ep], rp⟩

/-- **C157.** `BSplineRedshift` in rounded arithmetic, at a sample within the limits whose computed logarithm is in the range of the spline. -/
theorem C157_rate (C : f.Contract κ) {s : Spline} {m D : ℕ} {o : RTree s.N} {c : ℕ → ℝ} {A W Λ : ℝ} (h : s.DensityOK m o D c A κ) (hs : s.Steady W) (hr : s.lo ≤ s.hi)
    {n D' : ℕ} {og : RTree n} {zs V_ : ℕ → ℝ} (g : RateGrid f s c Λ og D' zs V_) {lo hi z V : ℝ} (hin : lo ≤ z ∧ z ≤ hi) (hz : s.LogPoint f Λ z) (r : RateOK z V)
    (hsz : (2⁻¹:ℝ) ^ 44 ≤ rateOf V z (s.logExpo c z) ∧ rateOf V z (s.logExpo c z) ≤ 2 ^ 44)
    (hA0 : 0 ≤ A) (hA : A ≤ 30) (hε : 2 * rateErr s D A W Λ κ + (10 + 2 * D') * κ ≤ 1) :
    ∃ p, bsplineRedshiftCallR f lo hi s o (fun i => fin (c i)) og zs (fun j => fin (V_ j)) z (fin V) = fin p ∧
      Within (2 * rateErr s D A W Λ κ + (10 + 2 * D') * κ) (rateOf V z (s.logExpo c z) / rateNorm s c n zs V_) p := by
  have hκ := C.pos
  have hD' : (0:ℝ) ≤ D' * κ := mul_nonneg (Nat.cast_nonneg _) hκ.le
  have hΛ : 0 ≤ Λ := (abs_nonneg _).trans hz.lam
  obtain ⟨hE0, hL0⟩ := logSplineErr_nonneg (D := D) hκ hs hA0 hΛ
  have hlE : logSplineErr s D A W Λ κ = (10 * s.order + 5 + 2 * D) * κ * A + 2 * A / W * (1 + Λ) * κ := rfl
  have hAκ : 0 ≤ A * κ := by positivity
  have heE : rateErr s D A W Λ κ = logSplineErr s D A W Λ κ + (10 + A) * κ := rfl
  have hl0 : 0 ≤ logSplineErr s D A W Λ κ := by rw [hlE]; linarith
  obtain ⟨T, eT, rT, t0, t1⟩ := C157_norm C h hs g hA0 hA (by linarith)
  obtain ⟨e, ee, he, hb⟩ := C149_exponent C h hs hz hA0 (by linarith) (by rw [heE, hlE] at hε; linarith)
  obtain ⟨a, ea, ra⟩ := C157_numerator C r he hb ((hs.logExpo_le h.knots hA0 h.coefs hr z).trans hA) (by rw [heE] at hε; linarith)
  obtain ⟨p, ep, rp⟩ := C157_quotient C ra rT (by rw [heE] at hε ⊢; linarith) hsz.1 hsz.2 t0 t1
  refine ⟨p, ?_, (rp.mono (by rw [heE]; linarith)).within (div_nonneg (le_trans (by positivity) hsz.1) (le_trans (by positivity) t0))⟩
  unfold bsplineRedshiftCallR
  simp only [if_pos hin, ee, ea, eT, ep]

/-- **C157**, outside the limits: the rate is not cut but computed with exponent zero; it is `dV/dz / (1 + z)` over the normalisation, and positive. -/
theorem C157_outside_fails (C : f.Contract κ) {s : Spline} {m D : ℕ} {o : RTree s.N} {c : ℕ → ℝ} {A W Λ : ℝ} (h : s.DensityOK m o D c A κ) (hs : s.Steady W)
    {n D' : ℕ} {og : RTree n} {zs V_ : ℕ → ℝ} (g : RateGrid f s c Λ og D' zs V_) {lo hi z V : ℝ} (hout : ¬ (lo ≤ z ∧ z ≤ hi)) (r : RateOK z V)
    (hA0 : 0 ≤ A) (hA : A ≤ 30) (hε : rateErr s D A W Λ κ + (17 + 2 * D') * κ ≤ 1) :
    ∃ p, bsplineRedshiftCallR f lo hi s o (fun i => fin (c i)) og zs (fun j => fin (V_ j)) z (fin V) = fin p ∧
      Within (rateErr s D A W Λ κ + (17 + 2 * D') * κ) (V / (1 + z) / rateNorm s c n zs V_) p ∧ 0 < p := by
  have hκ := C.pos
  have hk : 1000 * κ ≤ 1 := by have := C.small; norm_num at this ⊢; linarith
  obtain ⟨T, eT, rT, t0, t1⟩ := C157_norm C h hs g hA0 hA (by linarith)
  obtain ⟨q0, q1⟩ := r.quot
  have e1 : rateOf V z 0 = V / (1 + z) := by unfold rateOf; rw [Real.exp_zero, mul_one]
  obtain ⟨a, ea, ra⟩ := C157_numerator C r (e := 0) (E := 0) (δ := 0) (by simp) (by simp) (by simp) (by linarith)
  rw [e1] at ra
  obtain ⟨p, ep, rp⟩ := C157_quotient C ra rT (by linarith) (le_trans (by norm_num) q0) (q1.trans (by norm_num)) t0 t1
  have hp : 0 < V / (1 + z) / rateNorm s c n zs V_ := div_pos (lt_of_lt_of_le (by positivity) q0) (lt_of_lt_of_le (by positivity) t0)
  refine ⟨p, ?_, (rp.mono (by linarith)).within hp.le, rp.pos hp⟩
  unfold bsplineRedshiftCallR
  simp only [if_neg hout]
  rw [show (0:F) = fin 0 from rfl, ea, eT, ep]

/-- **C157.** Without rounding the rate is the documented one: `dV/dz / (1 + z) · exp(spline)` over its trapezoid integral. -/
theorem C157_exact {s : Spline} (hk : 1 ≤ s.order) {n : ℕ} (o : RTree s.N) (ho : o.Covers) (og : RTree n) (hog : og.Covers) {zs : ℕ → ℝ} (hg : ∀ j ≤ n, 0 < zs j ∧ ¬ s.outside (Real.log (zs j)))
    (c V_ : ℕ → ℝ) {lo hi z V : ℝ} (hin : lo ≤ z ∧ z ≤ hi) (hz : 0 < z ∧ ¬ s.outside (Real.log z)) (hT : rateNorm s c n zs V_ ≠ 0) :
    bsplineRedshiftCallR Arith.exact lo hi s o (fun i => fin (c i)) og zs (fun j => fin (V_ j)) z (fin V) = fin (rateOf V z (s.logExpo c z) / rateNorm s c n zs V_) := by
  have key : ∀ {v : ℝ}, 0 < v → ¬ s.outside (Real.log v) → einsumR Arith.exact o (fun i => s.logXBasesR Arith.exact i v) (fun i => fin (c i)) = fin (s.logExpo c v) := by
    intro v h0 hv
    have hl : Arith.exact.log (fin v) = fin (Real.log v) := F.log_fin h0
    rw [einsumR_exact o ho (fun i => s.bBases i (Real.log v)) c _ fun i _ => by unfold Spline.logXBasesR; simp only [hl]; rw [bBasesR_exact s hk]]
    unfold Spline.logExpo Spline.expo
    rw [s.clampTo_eq hv]
  have hexp : ∀ x : ℝ, Arith.exact.exp (fin x) = fin (Real.exp x) := fun _ => rfl
  have hN : bsplineRedshiftNormR Arith.exact s o (fun i => fin (c i)) og zs (fun j => fin (V_ j)) = fin (rateNorm s c n zs V_) := by
    unfold bsplineRedshiftNormR rateNorm
    refine trapzR_exact og hog _ _ _ fun j hj => ?_
    obtain ⟨h0, h1⟩ := hg j hj
    simp only [key h0 h1, hexp, one_def, add_fin, exact_r]
    rw [div_fin (by linarith), mul_fin]
    rfl
  unfold bsplineRedshiftCallR Spline.logXProjectR
  simp only [if_pos hin]
  simp only [key hz.1 hz.2, hN, one_def, mul_fin, mul_one, exact_r, hexp, add_fin]
  rw [div_fin (by linarith [hz.1]), div_fin hT]
  unfold rateOf
  congr 2
  ring

/-! ### examples -/

theorem hat_rateOK {z : ℝ} (h1 : 4 ≤ z) (h2 : z ≤ 12) : RateOK z 1 := ⟨by linarith, by linarith, by norm_num, by norm_num⟩

theorem hat_rate {c : ℕ → ℝ} (hc : ∀ i < 3, |c i| ≤ 5) {z : ℝ} (h1 : 4 ≤ z) (h2 : z ≤ 12) :
    (2⁻¹:ℝ) ^ 44 ≤ rateOf 1 z (hatSpline.logExpo c z) ∧ rateOf 1 z (hatSpline.logExpo c z) ≤ 2 ^ 44 := by
  have hp := Real.exp_pos (hatSpline.logExpo c z)
  have h := hat_steady.logExpo_le hatSpline_ok (A := 5) (by norm_num) hc (by simp [hatSpline]) z
  rw [abs_le] at h
  have e5 : Real.exp 5 ≤ 2 ^ 15 := by
    rw [show (5:ℝ) = ((5:ℕ):ℝ) * 1 by norm_num, Real.exp_nat_mul]
    have := Real.exp_one_lt_d9
    exact (pow_le_pow_left₀ (Real.exp_pos 1).le (show Real.exp 1 ≤ 2 ^ 3 by norm_num; linarith) 5).trans (by norm_num)
  have a1 : (2⁻¹:ℝ) ^ 15 ≤ Real.exp (hatSpline.logExpo c z) := by
    refine le_trans ?_ (Real.exp_le_exp.2 h.1)
    rw [Real.exp_neg, inv_pow]; exact inv_anti₀ (Real.exp_pos _) e5
  have a2 : Real.exp (hatSpline.logExpo c z) ≤ 2 ^ 15 := (Real.exp_le_exp.2 h.2).trans e5
  obtain ⟨q0, q1⟩ := (hat_rateOK h1 h2).quot
  unfold rateOf
  constructor
  · calc (2⁻¹:ℝ) ^ 44 ≤ 2⁻¹ ^ 16 * 2⁻¹ ^ 15 := by norm_num
      _ ≤ _ := mul_le_mul q0 a1 (by positivity) (le_trans (by positivity) q0)
  · calc _ ≤ (2:ℝ) ^ 12 * 2 ^ 15 := mul_le_mul q1 a2 hp.le (by positivity)
      _ ≤ 2 ^ 44 := by norm_num

theorem hat_rateGrid {c : ℕ → ℝ} (hc : ∀ i < 3, |c i| ≤ 5) : RateGrid binary32 hatSpline c 3 hatGridOrder 1 logHatGrid (fun _ => 1) where
  covers := hatGridOrder_covers
  depth := by decide
  points := by norm_num
  inside := fun j hj => hat_logPoint (logHatGrid_inside j hj).1 (by linarith [(logHatGrid_inside j hj).2])
  ok := fun j hj => hat_rateOK (logHatGrid_inside j hj).1 (logHatGrid_inside j hj).2
  size := fun j hj => hat_rate hc (logHatGrid_inside j hj).1 (logHatGrid_inside j hj).2
  steps := logHatGrid_step

/-- all coefficients up to 5, every redshift from 4 to 12: the rate is accurate to `2⁻¹³` in single precision -/
example (c : ℕ → ℝ) (hc : ∀ i < 3, |c i| ≤ 5) (z : ℝ) (h1 : 4 ≤ z) (h2 : z ≤ 12) :
    ∃ p, bsplineRedshiftCallR binary32 4 12 hatSpline hatOrder (fun i => fin (c i)) hatGridOrder logHatGrid (fun _ => fin 1) z (fin 1) = fin p ∧
      Within (2⁻¹ ^ 13) (rateOf 1 z (hatSpline.logExpo c z) / rateNorm hatSpline c 2 logHatGrid (fun _ => 1)) p := by
  have C := binary32_contract
  obtain ⟨p, ep, wp⟩ := C157_rate (W := 1) (lo := 4) (hi := 12) C (hatSpline_density hc (by norm_num)) hat_steady (by simp [hatSpline]) (hat_rateGrid hc) ⟨h1, h2⟩ (hat_logPoint h1 (by linarith))
    (hat_rateOK h1 h2) (hat_rate hc h1 h2) (by norm_num) (by norm_num) (by unfold rateErr logSplineErr; simp only [hatSpline]; norm_num)
  obtain ⟨-, -, -, t0, -⟩ := C157_norm (W := 1) C (hatSpline_density hc (by norm_num)) hat_steady (hat_rateGrid hc) (by norm_num) (by norm_num) (by unfold rateErr logSplineErr; simp only [hatSpline]; norm_num)
  exact ⟨p, ep, wp.mono (by unfold rateErr logSplineErr; simp only [hatSpline]; norm_num) (div_nonneg (le_trans (by positivity) (hat_rate hc h1 h2).1) (le_trans (by positivity) t0))⟩

/-- redshift 2 lies outside the limits 4..12 and still gets a positive rate -/
example (c : ℕ → ℝ) (hc : ∀ i < 3, |c i| ≤ 5) :
    ∃ p, bsplineRedshiftCallR binary32 4 12 hatSpline hatOrder (fun i => fin (c i)) hatGridOrder logHatGrid (fun _ => fin 1) 2 (fin 1) = fin p ∧ 0 < p := by
  obtain ⟨p, ep, -, hp⟩ := C157_outside_fails (W := 1) (lo := 4) (hi := 12) (z := 2) (V := 1) binary32_contract (hatSpline_density hc (by norm_num)) hat_steady (hat_rateGrid hc) (by norm_num)
    ⟨by norm_num, by norm_num, by norm_num, by norm_num⟩ (by norm_num) (by norm_num) (by unfold rateErr logSplineErr; simp only [hatSpline]; norm_num)
  exact ⟨p, ep, hp⟩

end GW
end
