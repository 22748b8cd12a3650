import Verif.Props.RoundingLogSpline
import Verif.Props.RoundingParametricExact

/-! # Property C149 continued: without rounding, outside the range, and single precision -/

open Finset
noncomputable section
open Classical
namespace GW
open F

/-- without rounding the recursion is `basis` -/
theorem basisR_exact (t : ℕ → ℝ) (x : ℝ) (k : ℕ) : ∀ i, basisR Arith.exact t x k i = fin (basis t x k i) := by
  induction k using Nat.strong_induction_on with
  | _ k ih =>
    intro i
    have he := knotEps_pos
    have hrd : Arith.exact.rd knotEps = fin knotEps := rfl
    match k with
    | 0 => rfl
    | 1 =>
      rw [basisR, basis_one]
      simp only [sub_fin, exact_r, hrd, lt_fin]
      split_ifs with h1 h2
      · rfl
      · rw [one_def, div_fin (by linarith)]
      · rfl
    | k + 2 =>
      rw [basisR, basis_add_two]
      simp only [sub_fin, exact_r, hrd, lt_fin, ih (k + 1) (by omega), mul_fin, add_fin]
      split_ifs with h1
      · rfl
      · have : ((k:ℝ) + 1) * (t (i + (k + 2)) - t i) ≠ 0 := mul_ne_zero (by positivity) (by linarith)
        rw [div_fin this]

theorem bBasesR_exact (s : Spline) (hk : 1 ≤ s.order) (i : ℕ) (x : ℝ) : s.bBasesR Arith.exact i x = fin (s.bBases i x) := by
  unfold Spline.bBasesR Spline.bBases Spline.bBaseR Spline.bBase
  have : (s.order : ℝ) ≠ 0 := by positivity
  simp only [sub_fin, exact_r, basisR_exact, div_fin this, mul_fin]
  split_ifs <;> rfl

theorem einsumR_exact {N : ℕ} (o : RTree N) (ho : o.Covers) (b c : ℕ → ℝ) (bs : ℕ → F) (hb : ∀ i < N, bs i = fin (b i)) :
    einsumR Arith.exact o bs (fun i => fin (c i)) = fin (∑ i ∈ range N, b i * c i) := by
  unfold einsumR
  rw [exact_sum _ _ ho, Finset.sum_range, ← sum_fin]
  exact Finset.sum_congr rfl fun i _ => by rw [hb i i.2, mul_fin, exact_r]

/-- **C144.** Without rounding the normalised exponential spline is the exact density `C144_density` compares with. -/
theorem C144_exact {s : Spline} (hk : 1 ≤ s.order) {n : ℕ} (o : RTree s.N) (ho : o.Covers) (og : RTree n) (hog : og.Covers) {grid : ℕ → ℝ} (hin : ∀ j ≤ n, ¬ s.outside (grid j)) (c : ℕ → ℝ)
    (hT : trapz (n + 1) (fun j => Real.exp (∑ i ∈ range s.N, s.bBases i (grid j) * c i)) grid ≠ 0) {x : ℝ} (hx : ¬ s.outside x) :
    s.logYEvalR Arith.exact o og grid (fun i => fin (c i)) x =
      fin (Real.exp (∑ i ∈ range s.N, s.bBases i x * c i) * (1 / trapz (n + 1) (fun j => Real.exp (∑ i ∈ range s.N, s.bBases i (grid j) * c i)) grid)) := by
  have key : ∀ {v : ℝ}, ¬ s.outside v → s.logYProjectR Arith.exact o (fun i => fin (c i)) v = fin (Real.exp (∑ i ∈ range s.N, s.bBases i v * c i)) := by
    intro v hv
    unfold Spline.logYProjectR
    rw [einsumR_exact o ho (fun i => s.bBases i v) c _ fun i _ => by unfold Spline.logYBasesR; rw [if_neg hv, bBasesR_exact s hk]]
    rfl
  unfold Spline.logYEvalR
  rw [trapzR_exact og hog _ _ _ fun j hj => key (hin j hj), key hx, one_def, div_fin hT, exact_r, exact_r, mul_fin]

/-- **C149.** Without rounding the spline in `log x` is `logSplineDensity`, and the redshift density with a spline is the formula of `C149_redshift`. -/
theorem C149_exact {s : Spline} (hk : 1 ≤ s.order) {n : ℕ} (o : RTree s.N) (ho : o.Covers) (og : RTree n) (hog : og.Covers) {grid : ℕ → ℝ} (hin : ∀ j ≤ n, 0 < grid j ∧ ¬ s.outside (Real.log (grid j)))
    (c : ℕ → ℝ) {x : ℝ} (hx : 0 < x ∧ ¬ s.outside (Real.log x)) :
    (trapz (n + 1) (fun j => Real.exp (s.logExpo c (grid j))) grid ≠ 0 → s.logXYEvalR Arith.exact o og grid (fun i => fin (c i)) x = fin (logSplineDensity s n grid c x)) ∧
    (∀ (V_ : ℕ → ℝ) (V lamb zmax : ℝ), x ≤ zmax → trapz (n + 1) (fun j => splineRedshiftWeight s c lamb (grid j) (V_ j)) grid ≠ 0 →
      splineRedshiftCallR Arith.exact F.pow s o (fun i => fin (c i)) og grid (fun j => fin (V_ j)) zmax x (fin V) (fin lamb) =
        fin (splineRedshiftWeight s c lamb x V / trapz (n + 1) (fun j => splineRedshiftWeight s c lamb (grid j) (V_ j)) grid)) := by
  have hl : ∀ {v : ℝ}, 0 < v → Arith.exact.log (fin v) = fin (Real.log v) := fun h => F.log_fin h
  have hex : ∀ {v : ℝ}, ¬ s.outside (Real.log v) → s.logExpo c v = ∑ i ∈ range s.N, s.bBases i (Real.log v) * c i := fun h => by
    unfold Spline.logExpo Spline.expo; rw [s.clampTo_eq h]
  constructor
  · intro hT
    have key : ∀ {v : ℝ}, 0 < v → ¬ s.outside (Real.log v) → s.logXYProjectR Arith.exact o (fun i => fin (c i)) v = fin (Real.exp (s.logExpo c v)) := by
      intro v h0 hv
      unfold Spline.logXYProjectR
      rw [einsumR_exact o ho (fun i => s.bBases i (Real.log v)) c _ fun i _ => by
        unfold Spline.logXYBasesR Spline.logYBasesR; simp only [hl h0]; rw [if_neg hv, bBasesR_exact s hk], hex hv]
      rfl
    unfold Spline.logXYEvalR
    rw [trapzR_exact og hog _ _ _ fun j hj => key (hin j hj).1 (hin j hj).2, key hx.1 hx.2, one_def, div_fin hT, exact_r, exact_r, mul_fin]
    rfl
  · intro V_ V lamb zmax hz hT
    have key : ∀ {v : ℝ} (U : ℝ), 0 < v → ¬ s.outside (Real.log v) → splineRedshiftProbR Arith.exact F.pow s o (fun i => fin (c i)) v (fin U) (fin lamb) = fin (splineRedshiftWeight s c lamb v U) := by
      intro v U h0 hv
      unfold splineRedshiftProbR Spline.logXProjectR
      rw [einsumR_exact o ho (fun i => s.bBases i (Real.log v)) c _ fun i _ => by
        unfold Spline.logXBasesR; simp only [hl h0]; rw [bBasesR_exact s hk], ← hex hv]
      simp only [redshiftProbR, exact_r, one_def, add_fin, sub_fin, mul_fin, mul_one]
      rw [F.pow_fin_pos (by linarith), mul_fin]
      rfl
    unfold splineRedshiftCallR splineRedshiftNormR
    rw [if_pos (show le (fin x) (fin zmax) from hz), trapzR_exact og hog _ _ _ fun j hj => key (V_ j) (hin j hj).1 (hin j hj).2, key V hx.1 hx.2, div_fin hT, exact_r]

/-! ### outside the range -/

variable {f : Arith} {κ : ℝ}

theorem ninf_mul_cases (a : F) : F.ninf * a = pinf ∨ F.ninf * a = ninf ∨ F.ninf * a = nan := by
  cases a with
  | fin x =>
    rcases lt_trichotomy x 0 with h | h | h
    · left; rw [ninf_mul_fin, infOfSign_pos (by linarith)]
    · right; right; rw [ninf_mul_fin, h, neg_zero, infOfSign_zero]
    · right; left; rw [ninf_mul_fin, infOfSign_neg (by linarith)]
  | pinf => right; left; rfl
  | ninf => left; rfl
  | nan => right; right; rfl

theorem sum_not_fin {n : ℕ} {a : Fin n → F} (ha : ∀ i, a i = pinf ∨ a i = ninf ∨ a i = nan) (t : RTree n) : f.sum a t = pinf ∨ f.sum a t = ninf ∨ f.sum a t = nan := by
  induction t with
  | leaf i => exact ha i
  | node l r hl hr =>
    rcases hl with h | h | h <;> rcases hr with h' | h' | h' <;> simp [Arith.sum, h, h', Arith.r]

/-- **C149.** A sample whose computed logarithm is outside the range: the exponential is zero up to underflow, whatever the coefficients. -/
theorem C149_outside (C : f.Contract κ) {s : Spline} (o : RTree s.N) (coefs : ℕ → F) {x y : ℝ} (hx : f.log (fin x) = fin y) (hy : s.outside y) :
    ∃ p, s.logXYProjectR f o coefs x = fin p ∧ 0 ≤ p ∧ p ≤ 2⁻¹ ^ 110 := by
  have e : ∀ i, s.logXYBasesR f i x = ninf := fun i => by unfold Spline.logXYBasesR Spline.logYBasesR; simp only [hx, if_pos hy]
  have h := sum_not_fin (f := f) (a := fun i : Fin s.N => f.r (s.logXYBasesR f i x * coefs i)) (fun i => by
    rw [e]
    rcases ninf_mul_cases (coefs i) with h | h | h <;> rw [h] <;> simp [Arith.r]) o
  unfold Spline.logXYProjectR einsumR
  rcases h with h | h | h <;> rw [h]
  · exact ⟨0, C.exp_ninf, le_rfl, by positivity⟩
  · exact C.exp_small (-BIG) (by unfold BIG; norm_num)
  · exact ⟨0, C.exp_ninf, le_rfl, by positivity⟩

/-- **C149**, failure at the ends of the range: a sample (or grid point) `x` with exact logarithm in the range but computed logarithm past the end gets, before normalisation, less than `2⁻¹¹⁰`; the exact value is at least `exp (-A)`. -/
theorem C149_edge_fails (C : f.Contract κ) {s : Spline} {m : ℕ} {W A : ℝ} (hk : s.KnotsOK m) (h : s.Steady W) (o : RTree s.N) {c : ℕ → ℝ} (hA : 0 ≤ A) (hA30 : A ≤ 30) (hc : ∀ i < s.N, |c i| ≤ A)
    {x y : ℝ} (hx : f.log (fin x) = fin y) (hy : s.outside y) (hin : ¬ s.outside (Real.log x)) :
    ∃ p, s.logXYProjectR f o (fun i => fin (c i)) x = fin p ∧ p ≤ 2⁻¹ ^ 66 * Real.exp (∑ i ∈ range s.N, s.bBases i (Real.log x) * c i) := by
  obtain ⟨p, ep, -, hp⟩ := C149_outside C o (fun i => fin (c i)) hx hy
  have hr : s.lo ≤ s.hi := by unfold Spline.outside at hin; push Not at hin; exact hin.1.trans hin.2
  have e := exp_bounds hA30 (h.logExpo_le hk hA hc hr x)
  have e1 : s.logExpo c x = ∑ i ∈ range s.N, s.bBases i (Real.log x) * c i := by unfold Spline.logExpo Spline.expo; rw [s.clampTo_eq hin]
  rw [e1] at e
  refine ⟨p, ep, hp.trans ?_⟩
  calc (2⁻¹:ℝ) ^ 110 = 2⁻¹ ^ 66 * 2⁻¹ ^ 44 := by norm_num
    _ ≤ _ := mul_le_mul_of_nonneg_left e.1 (by positivity)

/-! ### single precision: the spline of order 2 with knots 0 to 4 in `log x`, range `e` to `e³`, on the grid 4, 8, 12 -/

theorem hat_steady : hatSpline.Steady 1 where
  order := le_rfl
  len := rfl
  eps := by unfold knotEps; norm_num
  steps i _ := by simp [hatSpline]
  ends j hj := by
    simp only [hatSpline] at hj ⊢
    have : (j:ℝ) ≤ 5 := by exact_mod_cast hj.le
    have h0 : (0:ℝ) ≤ j := Nat.cast_nonneg j
    constructor <;> rw [abs_le] <;> constructor <;> norm_num <;> linarith

theorem hat_logPoint {x : ℝ} (h1 : 4 ≤ x) (h2 : x ≤ 16) : hatSpline.LogPoint binary32 3 x := by
  have l2 := Real.log_two_gt_d9
  have l4 : 1.3 ≤ Real.log x := by
    refine le_trans ?_ (Real.log_le_log (by norm_num) h1)
    rw [show (4:ℝ) = 2 ^ 2 by norm_num, Real.log_pow]; push_cast; linarith
  have l16 : Real.log x ≤ 2.8 := (Real.log_le_log (by linarith) h2).trans log_sixteen
  have habs : |Real.log x| ≤ 3 := by rw [abs_le]; constructor <;> linarith
  have hlow : flLo ≤ x := le_trans (by unfold flLo; norm_num) h1
  have hhigh : x ≤ flHi := h2.trans (by unfold flHi; norm_num)
  obtain ⟨y, ey, hy⟩ := binary32_contract.log_norm x hlow hhigh
  refine ⟨hlow, hhigh, habs, y, ey, ?_⟩
  have h3 : |y - Real.log x| ≤ 1 / 100 := hy.trans (by norm_num; linarith)
  rw [abs_le] at h3
  unfold Spline.outside
  simp only [hatSpline]
  push Not
  constructor <;> linarith [h3.1, h3.2]

/-- single precision with a library logarithm that is off by half a unit in the last place at `e` -/
def nudged32 : Arith := { binary32 with log := fun a => if a = fin (Real.exp 1) then fin (1 - 2⁻¹ ^ 24) else binary32.log a }

theorem nudged32_contract : nudged32.Contract (2⁻¹ ^ 23) :=
  { binary32_contract with
    log_norm := fun x h1 h2 => by
      by_cases hx : x = Real.exp 1
      · subst hx
        refine ⟨1 - 2⁻¹ ^ 24, by simp [nudged32], ?_⟩
        rw [Real.log_exp]; norm_num
      · obtain ⟨y, ey, hy⟩ := binary32_contract.log_norm x h1 h2
        exact ⟨y, by simp [nudged32, hx, ey], hy⟩
    log_zero := by
      have : (0:ℝ) ≠ Real.exp 1 := (Real.exp_pos 1).ne
      simp only [nudged32, fin.injEq, this, if_false]; exact binary32_contract.log_zero
    log_nan := by simp only [nudged32, reduceCtorEq, if_false]; exact binary32_contract.log_nan }

/-- The error allowed by the contract is enough to lose the end of the range: with that logarithm the spline of range `e` to `e³` is practically zero at `e`. -/
example (c : ℕ → ℝ) (hc : ∀ i < 3, |c i| ≤ 5) :
    ∃ p, hatSpline.logXYProjectR nudged32 hatOrder (fun i => fin (c i)) (Real.exp 1) = fin p ∧ p ≤ 2⁻¹ ^ 66 * Real.exp (∑ i ∈ range 3, hatSpline.bBases i (Real.log (Real.exp 1)) * c i) :=
  C149_edge_fails nudged32_contract hatSpline_ok hat_steady hatOrder (by norm_num) (by norm_num) hc (y := 1 - 2⁻¹ ^ 24) (by simp [nudged32])
    (by unfold Spline.outside; left; simp only [hatSpline]; norm_num)
    (by rw [Real.log_exp]; unfold Spline.outside; simp only [hatSpline]; norm_num)

/-- the grid 4, 8, 12 -/
def logHatGrid (j : ℕ) : ℝ := 4 + 4 * j

theorem logHatGrid_inside (j : ℕ) (hj : j ≤ 2) : 4 ≤ logHatGrid j ∧ logHatGrid j ≤ 12 := by
  have : (j:ℝ) ≤ 2 := by exact_mod_cast hj
  have h0 : (0:ℝ) ≤ j := Nat.cast_nonneg j
  unfold logHatGrid; constructor <;> linarith

theorem logHatGrid_step (j : ℕ) (_ : j < 2) : (2⁻¹:ℝ) ^ 18 ≤ logHatGrid (j + 1) - logHatGrid j ∧ logHatGrid (j + 1) - logHatGrid j ≤ 2 ^ 18 := by
  unfold logHatGrid; push_cast; constructor <;> ring_nf <;> norm_num

theorem hatGridOrder_covers : hatGridOrder.Covers := by unfold RTree.Covers hatGridOrder; decide
theorem hatOrder_covers : hatOrder.Covers := by unfold RTree.Covers hatOrder; decide

/-- all coefficients up to 5, every `x` from 4 to 16: the density in `log x` is accurate to `2⁻¹³` -/
example (c : ℕ → ℝ) (hc : ∀ i < 3, |c i| ≤ 5) (x : ℝ) (h1 : 4 ≤ x) (h2 : x ≤ 16) :
    ∃ p, hatSpline.logXYEvalR binary32 hatOrder hatGridOrder logHatGrid (fun i => fin (c i)) x = fin p ∧ Within (2⁻¹ ^ 13) (logSplineDensity hatSpline 2 logHatGrid c x) p := by
  obtain ⟨p, ep, wp⟩ := C149_density (D' := 1) (W := 1) (Λ := 3) binary32_contract (hatSpline_density hc (by norm_num)) hat_steady (by simp [hatSpline]) hatGridOrder_covers (by decide) (by norm_num)
    logHatGrid_step (fun j hj => hat_logPoint (logHatGrid_inside j hj).1 (by linarith [(logHatGrid_inside j hj).2])) (hat_logPoint h1 h2) (by norm_num) (by norm_num)
    (by unfold logSplineErr; simp only [hatSpline]; norm_num)
  refine ⟨p, ep, wp.mono (by unfold logSplineErr; simp only [hatSpline]; norm_num) ?_⟩
  refine mul_nonneg (Real.exp_pos _).le (one_div_nonneg.2 ?_)
  unfold trapz
  refine mul_nonneg (by norm_num) (sum_nonneg fun i hi => mul_nonneg ?_ (add_nonneg (Real.exp_pos _).le (Real.exp_pos _).le))
  have := (logHatGrid_step i (by have := mem_range.1 hi; omega)).1
  exact le_trans (by positivity) this

/-- size of the redshift weights of the example: volume element 1, exponent 2, coefficients up to 5 -/
theorem hat_redshiftWeight {c : ℕ → ℝ} (hc : ∀ i < 3, |c i| ≤ 5) {z : ℝ} (h1 : 4 ≤ z) (h2 : z ≤ 12) :
    (2⁻¹:ℝ) ^ 44 ≤ splineRedshiftWeight hatSpline c 2 z 1 ∧ splineRedshiftWeight hatSpline c 2 z 1 ≤ 2 ^ 44 := by
  have h := hat_steady.logExpo_le hatSpline_ok (A := 5) (by norm_num) hc (by simp [hatSpline]) z
  rw [abs_le] at h
  have e5 : Real.exp 5 ≤ 2 ^ 15 := by
    rw [show (5:ℝ) = ((5:ℕ):ℝ) * 1 by norm_num, Real.exp_nat_mul]
    have := Real.exp_one_lt_d9
    exact (pow_le_pow_left₀ (Real.exp_pos 1).le (show Real.exp 1 ≤ 2 ^ 3 by norm_num; linarith) 5).trans (by norm_num)
  have a1 : (2⁻¹:ℝ) ^ 15 ≤ Real.exp (hatSpline.logExpo c z) := by
    refine le_trans ?_ (Real.exp_le_exp.2 h.1)
    rw [Real.exp_neg, inv_pow]; exact inv_anti₀ (Real.exp_pos _) e5
  have a2 : Real.exp (hatSpline.logExpo c z) ≤ 2 ^ 15 := (Real.exp_le_exp.2 h.2).trans e5
  have hp := Real.exp_pos (hatSpline.logExpo c z)
  unfold splineRedshiftWeight
  rw [show (2:ℝ) - 1 = 1 by norm_num, Real.rpow_one, one_mul]
  constructor
  · calc (2⁻¹:ℝ) ^ 44 ≤ 5 * 2⁻¹ ^ 15 := by norm_num
      _ ≤ _ := mul_le_mul (by linarith) a1 (by positivity) (by linarith)
  · calc _ ≤ (13:ℝ) * 2 ^ 15 := mul_le_mul (by linarith) a2 hp.le (by norm_num)
      _ ≤ 2 ^ 44 := by norm_num

theorem hat_redshiftOK {z : ℝ} (h1 : 4 ≤ z) (h2 : z ≤ 12) : RedshiftOK z 1 ((2:ℝ) - 1) :=
  ⟨by linarith, by linarith, by norm_num, by norm_num, .inr (by norm_num), by norm_num⟩

/-- all coefficients up to 5, every redshift from 4 to 12: the density with power law and spline is accurate to `2⁻¹³` -/
example (c : ℕ → ℝ) (hc : ∀ i < 3, |c i| ≤ 5) (z : ℝ) (h1 : 4 ≤ z) (h2 : z ≤ 12) :
    ∃ p, splineRedshiftCallR binary32 pow32 hatSpline hatOrder (fun i => fin (c i)) hatGridOrder logHatGrid (fun _ => fin 1) 12 z (fin 1) (fin 2) = fin p ∧
      Within (2⁻¹ ^ 13) (splineRedshiftWeight hatSpline c 2 z 1 / trapz 3 (fun j => splineRedshiftWeight hatSpline c 2 (logHatGrid j) 1) logHatGrid) p := by
  obtain ⟨p, ep, wp⟩ := C149_redshift (D' := 1) (W := 1) (Λ := 3) (zmax := 12) (V_ := fun _ => 1) (lamb := 2) binary32_contract pow32_contract (hatSpline_density hc (by norm_num)) hat_steady hatGridOrder_covers
    (by decide) (by norm_num) (fun j hj => hat_logPoint (logHatGrid_inside j hj).1 (by linarith [(logHatGrid_inside j hj).2]))
    (fun j hj => hat_redshiftOK (logHatGrid_inside j hj).1 (logHatGrid_inside j hj).2) (fun j hj => hat_redshiftWeight hc (logHatGrid_inside j hj).1 (logHatGrid_inside j hj).2) logHatGrid_step
    (hat_logPoint h1 (by linarith)) (hat_redshiftOK h1 h2) (hat_redshiftWeight hc h1 h2) h2 (by norm_num) (by norm_num)
    (by unfold splineRedshiftErr logSplineErr; simp only [hatSpline]; norm_num)
  refine ⟨p, ep, wp.mono (by unfold splineRedshiftErr logSplineErr; simp only [hatSpline]; norm_num) ?_⟩
  refine div_nonneg (le_trans (by positivity) (hat_redshiftWeight hc h1 h2).1) ?_
  unfold trapz
  refine mul_nonneg (by norm_num) (sum_nonneg fun i hi => ?_)
  have hi : i < 2 := by have := mem_range.1 hi; omega
  have a := (logHatGrid_step i hi).1
  have b := (hat_redshiftWeight hc (logHatGrid_inside i hi.le).1 (logHatGrid_inside i hi.le).2).1
  have d := (hat_redshiftWeight hc (logHatGrid_inside (i + 1) hi).1 (logHatGrid_inside (i + 1) hi).2).1
  exact mul_nonneg (le_trans (by positivity) a) (add_nonneg (le_trans (by positivity) d) (le_trans (by positivity) b))

end GW
end
