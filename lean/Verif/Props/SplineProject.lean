import Verif.Props.SplineBasis
import Verif.Model.LeastSquares
import Mathlib.Analysis.SpecialFunctions.Log.Basic
import Mathlib.LinearAlgebra.Matrix.DotProduct
import Mathlib.Analysis.Complex.ExponentialBounds

/-!
# Properties C05, C06, C09, C10, C14: projecting coefficients onto a spline
-/

open Finset
noncomputable section
open Classical
namespace GW

/-! ## C05 — linearity and scale freedom -/

theorem einsum_linear (N : ℕ) (B c d : ℕ → ℝ) (α β : ℝ) :
    einsum N B (fun i => α * c i + β * d i) = α * einsum N B c + β * einsum N B d := by
  unfold einsum
  rw [mul_sum, mul_sum, ← sum_add_distrib]
  exact sum_congr rfl fun i _ => by ring

theorem einsum_smul (N : ℕ) (B c : ℕ → ℝ) (α : ℝ) : einsum N B (fun i => α * c i) = α * einsum N B c := by
  unfold einsum; rw [mul_sum]; exact sum_congr rfl fun i _ => by ring

/-- **C05.** Un-normalised B-spline evaluation is linear in the coefficients, for every spline object and `x`. -/
theorem C05_linear (s : Spline) (c d : ℕ → ℝ) (α β x : ℝ) :
    s.bEval false (fun i => α * c i + β * d i) x = α * s.bEval false c x + β * s.bEval false d x := by
  simp only [Spline.bEval, bProject, bNorm, einsum_linear]
  simp

/-- **C05.** Normalised B-spline evaluation is unchanged when all coefficients are multiplied by the same non-zero
number (whenever the raw integral is non-zero, so that the normalisation exists). -/
theorem C05_scale_free (s : Spline) (c : ℕ → ℝ) (r x : ℝ) (hr : r ≠ 0) :
    s.bEval true (fun i => r * c i) x = s.bEval true c x := by
  simp only [Spline.bEval, bProject, bNorm, if_true, einsum_smul, trapz_smul]
  rw [one_div, one_div, mul_inv]
  field_simp

/-- **C05.** The same for any LogX spline. -/
theorem C05_scale_free_logX (s : Spline) (c : ℕ → ℝ) (r x : ℝ) (hr : r ≠ 0) :
    s.logXEval true (fun i => r * c i) x = s.logXEval true c x := by
  simp only [Spline.logXEval, bProject, bNorm, if_true, einsum_smul, trapz_smul]
  rw [one_div, one_div, mul_inv]
  field_simp

/-- **C05.** M-spline evaluation (normalised or not) is scale free in the coefficients. -/
theorem C05_scale_free_mspline (s : Spline) (nrm : Bool) (c : ℕ → ℝ) (r x : ℝ) (hr : r ≠ 0) :
    s.mEval nrm (fun i => r * c i) x = s.mEval nrm c x := by
  have : (fun i => r * c i / ∑ j ∈ range s.N, r * c j) = fun i => c i / ∑ j ∈ range s.N, c j := by
    funext i; rw [← mul_sum, mul_div_mul_left _ _ hr]
  simp only [Spline.mEval, mProject, this]

/-- C05's guard: the raw integral `trapezoid(_project(grid_bases, c), grid)` is positive for a default spline with
positive coefficients, so scale freedom above is about genuine (finite) normalisations. -/
theorem raw_integral_pos (nDf k : ℕ) (a b : ℝ) (hk : 2 ≤ k) (hn : k ≤ nDf)
    (hgap : 1 / 1000000 ≤ (b - a) / ((nDf : ℝ) - k + 1))
    (s : Spline) (hs : Spline.init nDf none none a b k = .ok s) (c : ℕ → ℝ) (hc : ∀ i < nDf, 0 < c i) :
    0 < trapz s.grid.len (fun j => einsum s.N (fun i => s.bBases i (s.grid.get j)) c) s.grid.get := by
  have hlt : a < b := by
    have : 0 < (b - a) / ((nDf : ℝ) - k + 1) := lt_of_lt_of_le (by norm_num) hgap
    have := (div_pos_iff_of_pos_right (default_den_pos hn)).1 this
    linarith
  obtain ⟨ho, hN, hlo, hhi, -, -⟩ := init_default_eq (by omega) hn hs
  have hg : s.grid = linspace a b 1000 := by rw [Spline.grid, hlo, hhi]
  rw [hg]
  refine trapz_pos (by change 2 ≤ 1000; norm_num) (fun i hi => ?_) (fun i _ => ?_)
  · have hi : i < 1000 := hi
    have hmem := linspace_mem hlt.le (by norm_num : 2 ≤ 1000) hi
    -- lower bound by the smallest coefficient
    obtain ⟨m, hm0, hm⟩ : ∃ m : ℝ, 0 < m ∧ ∀ i < nDf, m ≤ c i := by
      have hne : (range nDf).Nonempty := ⟨0, by simp; omega⟩
      refine ⟨(range nDf).inf' hne c, ?_, fun i hi => Finset.inf'_le _ (mem_range.2 hi)⟩
      rw [Finset.lt_inf'_iff]; intro i hi; exact hc i (mem_range.1 hi)
    obtain ⟨M, hM⟩ : ∃ M : ℝ, ∀ i < nDf, c i ≤ M := by
      have hne : (range nDf).Nonempty := ⟨0, by simp; omega⟩
      exact ⟨(range nDf).sup' hne c, fun i hi => Finset.le_sup' _ (mem_range.2 hi)⟩
    have := (C04_convex_hull nDf k a b hk hn hgap s hs c m M (fun i hi => ⟨hm i hi, hM i hi⟩) _ hmem).1
    have hev : s.bEval false c ((linspace a b 1000).get i)
        = einsum s.N (fun j => s.bBases j ((linspace a b 1000).get i)) c := by
      simp [Spline.bEval, bProject, bNorm]
    rw [hev] at this
    linarith
  · exact linspace_strictMono hlt (by norm_num) (Nat.lt_succ_self i)

/-! ## C06 — normalised splines have unit integral on their grid -/

/-- (BSpline) If the raw trapezoid integral is non-zero the normalised spline integrates to 1 on the grid. -/
theorem bspline_unit_integral (s : Spline) (c : ℕ → ℝ)
    (h : trapz s.grid.len (fun j => s.bEval false c (s.grid.get j)) s.grid.get ≠ 0) :
    trapz s.grid.len (fun j => s.bEval true c (s.grid.get j)) s.grid.get = 1 := by
  simp only [Spline.bEval, bProject, bNorm, Bool.false_eq_true, if_false, if_true, mul_one] at h ⊢
  rw [trapz_mul_right, mul_one_div, div_self h]

/-- (LogXBSpline) -/
theorem logX_unit_integral (s : Spline) (c : ℕ → ℝ)
    (h : trapz s.logXGrid.len (fun j => s.logXEval false c (s.logXGrid.get j)) s.logXGrid.get ≠ 0) :
    trapz s.logXGrid.len (fun j => s.logXEval true c (s.logXGrid.get j)) s.logXGrid.get = 1 := by
  simp only [Spline.logXEval, bProject, bNorm, Bool.false_eq_true, if_false, if_true, mul_one] at h ⊢
  rw [trapz_mul_right, mul_one_div, div_self h]

/-- (BasisSpline, M-splines) -/
theorem mspline_unit_integral (s : Spline) (c : ℕ → ℝ)
    (h : trapz s.grid.len (fun j => s.mEval false c (s.grid.get j)) s.grid.get ≠ 0) :
    trapz s.grid.len (fun j => s.mEval true c (s.grid.get j)) s.grid.get = 1 := by
  simp only [Spline.mEval, mProject, mNorm, Bool.false_eq_true, if_false, if_true, mul_one] at h ⊢
  have key : ∀ d : ℕ → ℝ, trapz s.grid.len (fun j => einsum s.N (fun i => s.mBases i (s.grid.get j)) d) s.grid.get
      = ∑ i ∈ range s.N, basisVols s.grid.len (fun i j => s.mBases i (s.grid.get j)) s.grid.get i * d i := by
    intro d
    unfold einsum basisVols
    rw [trapz_sum]
    exact sum_congr rfl fun i _ => trapz_mul_right _ _ _ _
  rw [trapz_mul_right, ← key, mul_one_div, div_self h]

/-- C06 is not vacuous: a default cubic spline with positive coefficients has non-zero raw integral. -/
example : ∃ s, Spline.init 12 none none 0 1 4 = .ok s ∧
    trapz s.grid.len (fun j => s.bEval true (fun i => (i : ℝ) + 1) (s.grid.get j)) s.grid.get = 1 := by
  obtain ⟨s, hs, _⟩ := C16_default_knots 12 4 0 1 (by norm_num) (by norm_num)
  refine ⟨s, hs, bspline_unit_integral s _ ?_⟩
  have := raw_integral_pos 12 4 0 1 (by norm_num) (by norm_num) (by norm_num) s hs (fun i => (i : ℝ) + 1)
    (fun i _ => by positivity)
  simp only [Spline.bEval, bProject, bNorm, Bool.false_eq_true, if_false, mul_one]
  exact this.ne'

/-! ## C09 — LogXBSpline -/

/-- translating the knots and the point together changes nothing -/
theorem basis_shift (t : ℕ → ℝ) (x r : ℝ) (k : ℕ) : ∀ i, basis (fun j => t j + r) (x + r) k i = basis t x k i := by
  induction k using Nat.strong_induction_on with
  | _ k ih =>
    intro i
    match k with
    | 0 => rfl
    | 1 =>
      rw [basis_one, basis_one]
      simp only [add_sub_add_right_eq_sub, add_le_add_iff_right, add_lt_add_iff_right]
    | k + 2 =>
      rw [basis_add_two, basis_add_two, ih (k+1) (by omega), ih (k+1) (by omega)]
      simp only [add_sub_add_right_eq_sub]

theorem logXInit_default (nDf k : ℕ) (a b : ℝ) :
    logXInit nDf none none a b k = Spline.init nDf none none (Real.log a) (Real.log b) k := rfl

/-- **C09.** On the closed domain `[a,b]` (positive) the LogX basis values sum to 1. -/
theorem C09_logX_partition_of_unity (nDf k : ℕ) (a b : ℝ) (ha : 0 < a) (hk : 2 ≤ k) (hn : k ≤ nDf)
    (hgap : 1 / 1000000 ≤ (Real.log b - Real.log a) / ((nDf : ℝ) - k + 1))
    (s : Spline) (hs : logXInit nDf none none a b k = .ok s) (x : ℝ) (hx : a ≤ x ∧ x ≤ b) :
    ∑ i ∈ range nDf, s.logXBases i x = 1 := by
  have hx0 : 0 < x := lt_of_lt_of_le ha hx.1
  exact C01_partition_of_unity nDf k _ _ hk hn hgap s hs (Real.log x)
    ⟨Real.log_le_log ha hx.1, Real.log_le_log hx0 hx.2⟩

/-- **C09.** For every positive `x` outside `[a,b]` every LogX basis value is 0. -/
theorem C09_logX_zero_outside (nDf k : ℕ) (a b : ℝ) (ha : 0 < a) (hab : a < b) (hk : 1 ≤ k) (hn : k ≤ nDf)
    (s : Spline) (hs : logXInit nDf none none a b k = .ok s) (x : ℝ) (hx0 : 0 < x) (hx : x < a ∨ b < x) (i : ℕ) :
    s.logXBases i x = 0 := by
  obtain ⟨ho, hN, hlo, hhi, -, -⟩ := init_default_eq hk hn hs
  have : s.outside (Real.log x) := by
    unfold Spline.outside; rw [hlo, hhi]
    rcases hx with h | h
    · exact Or.inl (Real.log_lt_log hx0 h)
    · exact Or.inr (Real.log_lt_log (ha.trans hab) h)
  rw [Spline.logXBases, Spline.bBases, if_pos this]

/-- **C09.** Scale covariance: measuring `x` and the domain in other units leaves the basis unchanged. -/
theorem C09_logX_scale_covariant (nDf k : ℕ) (a b r : ℝ) (ha : 0 < a) (hb : 0 < b) (hr : 0 < r) (hk : 1 ≤ k)
    (hn : k ≤ nDf) (s s' : Spline) (hs : logXInit nDf none none a b k = .ok s)
    (hs' : logXInit nDf none none (r * a) (r * b) k = .ok s') (x : ℝ) (hx : 0 < x) (i : ℕ) :
    s'.logXBases i (r * x) = s.logXBases i x := by
  obtain ⟨ho, hN, hlo, hhi, -, hget⟩ := init_default_eq hk hn hs
  obtain ⟨ho', hN', hlo', hhi', -, hget'⟩ := init_default_eq hk hn hs'
  have hkn : s'.knots.get = fun j => s.knots.get j + Real.log r := by
    funext j
    rw [hget, hget', Real.log_mul hr.ne' ha.ne', Real.log_mul hr.ne' hb.ne']
    ring
  have hlx : Real.log (r * x) = Real.log x + Real.log r := by rw [Real.log_mul hr.ne' hx.ne']; ring
  have hout : s'.outside (Real.log (r * x)) ↔ s.outside (Real.log x) := by
    unfold Spline.outside
    rw [hlo, hhi, hlo', hhi', hlx, Real.log_mul hr.ne' ha.ne', Real.log_mul hr.ne' hb.ne', add_comm (Real.log r),
      add_comm (Real.log r)]
    simp only [add_lt_add_iff_right, gt_iff_lt]
  rw [Spline.logXBases, Spline.logXBases, Spline.bBases, Spline.bBases]
  by_cases h : s.outside (Real.log x)
  · rw [if_pos h, if_pos (hout.2 h)]
  · rw [if_neg h, if_neg (fun h' => h (hout.1 h')), Spline.bBase, Spline.bBase, hkn, hlx, ho, ho', basis_shift]
    simp only [add_sub_add_right_eq_sub]

example : ∃ s, logXInit 8 none none 1 100 4 = .ok s ∧ ∑ i ∈ range 8, s.logXBases i 10 = 1 := by
  obtain ⟨s, hs, _⟩ := C16_default_knots 8 4 (Real.log 1) (Real.log 100) (by norm_num) (by norm_num)
  refine ⟨s, hs, C09_logX_partition_of_unity 8 4 1 100 (by norm_num) (by norm_num) (by norm_num) ?_ s hs 10 (by norm_num)⟩
  have : (1 : ℝ) ≤ Real.log 100 := by
    rw [Real.le_log_iff_exp_le (by norm_num)]
    exact Real.exp_one_lt_three.le.trans (by norm_num)
  rw [Real.log_one, sub_zero, le_div_iff₀ (by norm_num)]
  norm_num; linarith

/-- **C09**, boundary of validity: a negative `x` is *not* mapped to zero — every component of order ≥ 2 is NaN
there (the range test is done on `log x`, and comparisons with NaN are false). -/
theorem C09_negative_x_is_nan_fails (nDf k : ℕ) (a b : ℝ) (hk : 2 ≤ k) (hn : k ≤ nDf)
    (hgap : 1 / 1000000 ≤ (Real.log b - Real.log a) / ((nDf : ℝ) - k + 1))
    (s : Spline) (hs : logXInit nDf none none a b k = .ok s) (x : ℝ) (hx : x < 0) (i : ℕ) :
    s.logXBasesF i (F.fin x) = F.nan := by
  obtain ⟨ho, hN, hlo, hhi, -, hget⟩ := init_default_eq (by omega) hn hs
  have hlog : F.log (F.fin x) = F.nan := F.log_fin_neg hx
  have hg : ¬ (s.knots.get (i + s.order) - s.knots.get i < knotEps) := by
    rw [hget, hget, ho]; push_cast
    have hk' : (1 : ℝ) ≤ k := by exact_mod_cast (by omega : 1 ≤ k)
    have : 0 < (Real.log b - Real.log a) / ((nDf : ℝ) - k + 1) := lt_of_lt_of_le (by norm_num) hgap
    rw [not_lt, knotEps]; nlinarith
  unfold Spline.logXBasesF
  simp only [hlog, F.gt, F.lt_nan_left, F.lt_nan_right, or_self, if_false]
  rw [if_neg]
  push Not
  exact ⟨by rw [ho]; omega, not_lt.1 hg⟩

/-- the `F`-valued LogX basis agrees with the real one at positive points -/
theorem logXBasesF_pos (s : Spline) (i : ℕ) (x : ℝ) (hx : 0 < x) :
    s.logXBasesF i (F.fin x) = F.fin (s.logXBases i x) := by
  unfold Spline.logXBasesF Spline.logXBases Spline.bBases Spline.outside
  simp only [F.log_fin hx, F.lt_fin, F.gt_fin, gt_iff_lt]
  split_ifs <;> rfl

/-! ## C10 — splines in log y -/

theorem not_finite_add_left {a b : F} (h : ¬ a.isfinite) : ¬ (a + b).isfinite := by
  cases a <;> cases b <;> simp_all

theorem not_finite_sum {N : ℕ} (hN : 1 ≤ N) (f : ℕ → F) (h : ∀ i < N, ¬ (f i).isfinite) :
    ¬ (∑ i ∈ range N, f i).isfinite := by
  obtain ⟨n, rfl⟩ : ∃ n, N = n + 1 := ⟨N - 1, by omega⟩
  rw [sum_range_succ, add_comm]
  exact not_finite_add_left (h n (by omega))

theorem ninf_mul_not_finite (c : ℝ) : ¬ (F.ninf * F.fin c).isfinite := by
  rw [F.ninf_mul_fin, F.infOfSign]
  split_ifs <;> simp

/-- out of range, the projection is exactly zero whatever the signs of the coefficients -/
theorem logYProject_out (N : ℕ) (hN : 1 ≤ N) (c : ℕ → ℝ) :
    logYProject N (fun _ => F.ninf) (fun i => F.fin (c i)) = F.fin 0 := by
  have h := not_finite_sum hN (fun i => F.ninf * F.fin (c i)) (fun i _ => ninf_mul_not_finite _)
  unfold logYProject einsumF
  generalize (∑ i ∈ range N, F.ninf * F.fin (c i)) = v at h
  cases v with
  | fin x => exact absurd (F.isfinite_fin x) h
  | pinf => simp [nanToNumLogY, expUnderflow]
  | ninf => simp [nanToNumLogY, expUnderflow]
  | nan => simp [nanToNumLogY, expUnderflow]

theorem logYProject_in (N : ℕ) (B c : ℕ → ℝ) (h : -F.BIG < einsum N B c) :
    logYProject N (fun i => F.fin (B i)) (fun i => F.fin (c i)) = F.fin (Real.exp (einsum N B c)) := by
  unfold logYProject einsumF
  have : ∑ i ∈ range N, F.fin (B i) * F.fin (c i) = F.fin (einsum N B c) := by
    simp only [F.mul_fin, F.sum_fin, einsum]
  rw [this]
  simp [nanToNumLogY, expUnderflow, not_le.2 h]

/-- a default spline: everything about evaluation needed below -/
structure DefaultOK (nDf k : ℕ) (a b : ℝ) (s : Spline) : Prop where
  hk : 2 ≤ k
  hn : k ≤ nDf
  hgap : 1 / 1000000 ≤ (b - a) / ((nDf : ℝ) - k + 1)
  hs : Spline.init nDf none none a b k = .ok s

theorem DefaultOK.lt {nDf k a b s} (h : DefaultOK nDf k a b s) : a < b := by
  have : 0 < (b - a) / ((nDf : ℝ) - k + 1) := lt_of_lt_of_le (by norm_num) h.hgap
  have := (div_pos_iff_of_pos_right (default_den_pos h.hn)).1 this
  linarith

theorem DefaultOK.einsum_gt {nDf k a b s} (h : DefaultOK nDf k a b s) (c : ℕ → ℝ) (hc : ∀ i < nDf, -F.BIG < c i)
    (x : ℝ) (hx : a ≤ x ∧ x ≤ b) : -F.BIG < einsum nDf (fun i => s.bBases i x) c := by
  have hne : (range nDf).Nonempty := ⟨0, by have := h.hk; have := h.hn; simp; omega⟩
  have hN := (init_default_eq (by have := h.hk; omega) h.hn h.hs).2.1
  have hm : -F.BIG < (range nDf).inf' hne c := by
    rw [Finset.lt_inf'_iff]; intro i hi; exact hc i (mem_range.1 hi)
  have := (C04_convex_hull nDf k a b h.hk h.hn h.hgap s h.hs c ((range nDf).inf' hne c) ((range nDf).sup' hne c)
    (fun i hi => ⟨Finset.inf'_le _ (mem_range.2 hi), Finset.le_sup' _ (mem_range.2 hi)⟩) x hx).1
  have hev : s.bEval false c x = einsum nDf (fun i => s.bBases i x) c := by
    simp [Spline.bEval, bProject, bNorm, hN]
  rw [hev] at this
  linarith

theorem DefaultOK.proj_in {nDf k a b s} (h : DefaultOK nDf k a b s) (c : ℕ → ℝ) (hc : ∀ i < nDf, -F.BIG < c i)
    (x : ℝ) (hx : a ≤ x ∧ x ≤ b) :
    logYProject s.N (fun i => s.logYBases i x) (fun i => F.fin (c i))
      = F.fin (Real.exp (einsum nDf (fun i => s.bBases i x) c)) := by
  obtain ⟨ho, hN, hlo, hhi, -, -⟩ := init_default_eq (by have := h.hk; omega) h.hn h.hs
  have hout : ¬ s.outside x := by
    unfold Spline.outside; rw [hlo, hhi]; push Not; exact hx
  have : (fun i => s.logYBases i x) = fun i => F.fin (s.bBases i x) := by
    funext i; rw [Spline.logYBases, if_neg hout]
  rw [this, hN, logYProject_in _ _ _ (h.einsum_gt c hc x hx)]

theorem DefaultOK.proj_out {nDf k a b s} (h : DefaultOK nDf k a b s) (c : ℕ → ℝ)
    (x : ℝ) (hx : x < a ∨ b < x) :
    logYProject s.N (fun i => s.logYBases i x) (fun i => F.fin (c i)) = F.fin 0 := by
  obtain ⟨ho, hN, hlo, hhi, -, -⟩ := init_default_eq (by have := h.hk; omega) h.hn h.hs
  have hout : s.outside x := by unfold Spline.outside; rw [hlo, hhi]; exact hx
  have : (fun i => s.logYBases i x) = fun _ => F.ninf := by
    funext i; rw [Spline.logYBases, if_pos hout]
  rw [this, hN, logYProject_out _ (by have := h.hk; have := h.hn; omega)]

/-- the real integral the log-Y spline is normalised by -/
def logYRaw (s : Spline) (grid : Arr ℝ) (u : ℝ → ℝ) (c : ℕ → ℝ) : ℝ :=
  trapz grid.len (fun j => Real.exp (einsum s.N (fun i => s.bBases i (u (grid.get j))) c)) grid.get

theorem DefaultOK.norm_eq {nDf k a b s} (h : DefaultOK nDf k a b s) (c : ℕ → ℝ) (hc : ∀ i < nDf, -F.BIG < c i) :
    0 < logYRaw s s.grid id c ∧
    logYNorm true s.N s.grid.len (fun i j => s.logYBases i (s.grid.get j)) s.grid.get (fun i => F.fin (c i))
      = F.fin (1 / logYRaw s s.grid id c) := by
  obtain ⟨ho, hN, hlo, hhi, -, -⟩ := init_default_eq (by have := h.hk; omega) h.hn h.hs
  have hg : s.grid = linspace a b 1000 := by rw [Spline.grid, hlo, hhi]
  have hpos : 0 < logYRaw s s.grid id c := by
    rw [logYRaw, hg]
    exact trapz_pos (by change 2 ≤ 1000; norm_num) (fun _ _ => Real.exp_pos _)
      (fun i _ => linspace_strictMono h.lt (by norm_num) (Nat.lt_succ_self i))
  refine ⟨hpos, ?_⟩
  rw [logYNorm, if_pos rfl]
  have e : trapzF s.grid.len (fun j => logYProject s.N (fun i => s.logYBases i (s.grid.get j)) fun i => F.fin (c i))
      (fun j => F.fin (s.grid.get j)) = F.fin (logYRaw s s.grid id c) := by
    rw [logYRaw, ← trapzF_fin]
    refine trapzF_congr (fun j hj => ?_) (fun _ _ => rfl)
    have hmem : a ≤ s.grid.get j ∧ s.grid.get j ≤ b := by
      rw [hg] at hj ⊢
      exact linspace_mem h.lt.le (by norm_num) hj
    rw [h.proj_in c hc _ hmem, hN]; rfl
  rw [e, F.div_fin hpos.ne']

/-- **C10.** A LogYBSpline (normalised or not) is a strictly positive finite number at every `x` of the domain and
exactly 0 at every finite `x` outside it, for every finite coefficient vector. -/
theorem C10_logY_zero_outside_positive_inside (nDf k : ℕ) (a b : ℝ) (hk : 2 ≤ k) (hn : k ≤ nDf)
    (hgap : 1 / 1000000 ≤ (b - a) / ((nDf : ℝ) - k + 1))
    (s : Spline) (hs : Spline.init nDf none none a b k = .ok s) (nrm : Bool)
    (c : ℕ → ℝ) (hc : ∀ i < nDf, -F.BIG < c i) (x : ℝ) :
    (a ≤ x ∧ x ≤ b → ∃ v : ℝ, 0 < v ∧ s.logYEval nrm (fun i => F.fin (c i)) x = F.fin v) ∧
    (x < a ∨ b < x → s.logYEval nrm (fun i => F.fin (c i)) x = F.fin 0) := by
  have h : DefaultOK nDf k a b s := ⟨hk, hn, hgap, hs⟩
  obtain ⟨hpos, hnorm⟩ := h.norm_eq c hc
  have hnrm : ∃ w : ℝ, 0 < w ∧
      logYNorm nrm s.N s.grid.len (fun i j => s.logYBases i (s.grid.get j)) s.grid.get (fun i => F.fin (c i)) = F.fin w := by
    cases nrm
    · exact ⟨1, by norm_num, by simp [logYNorm]⟩
    · exact ⟨_, by positivity, hnorm⟩
  obtain ⟨w, hw, hweq⟩ := hnrm
  constructor
  · intro hx
    refine ⟨Real.exp (einsum nDf (fun i => s.bBases i x) c) * w, mul_pos (Real.exp_pos _) hw, ?_⟩
    rw [Spline.logYEval, h.proj_in c hc x hx, hweq, F.mul_fin]
  · intro hx
    rw [Spline.logYEval, h.proj_out c x hx, hweq, F.mul_fin, zero_mul]

/-- **C10.** Adding one constant to all coefficients leaves the normalised log-Y density unchanged everywhere. -/
theorem C10_logY_shift_invariant (nDf k : ℕ) (a b : ℝ) (hk : 2 ≤ k) (hn : k ≤ nDf)
    (hgap : 1 / 1000000 ≤ (b - a) / ((nDf : ℝ) - k + 1))
    (s : Spline) (hs : Spline.init nDf none none a b k = .ok s)
    (c : ℕ → ℝ) (d : ℝ) (hc : ∀ i < nDf, -F.BIG < c i) (hcd : ∀ i < nDf, -F.BIG < c i + d) (x : ℝ) :
    s.logYEval true (fun i => F.fin (c i + d)) x = s.logYEval true (fun i => F.fin (c i)) x := by
  have h : DefaultOK nDf k a b s := ⟨hk, hn, hgap, hs⟩
  obtain ⟨ho, hN, hlo, hhi, -, -⟩ := init_default_eq (by omega) hn hs
  have hadd : ∀ y, a ≤ y ∧ y ≤ b → einsum nDf (fun i => s.bBases i y) (fun i => c i + d)
      = einsum nDf (fun i => s.bBases i y) c + d := by
    intro y hy
    have := C01_partition_of_unity nDf k a b hk hn hgap s hs y hy
    unfold einsum
    rw [show d = (∑ i ∈ range nDf, s.bBases i y) * d by rw [this, one_mul], sum_mul, ← sum_add_distrib]
    exact sum_congr rfl fun i _ => by rw [← sum_mul, this]; ring
  obtain ⟨p1, n1⟩ := h.norm_eq c hc
  obtain ⟨p2, n2⟩ := h.norm_eq (fun i => c i + d) hcd
  have hraw : logYRaw s s.grid id (fun i => c i + d) = logYRaw s s.grid id c * Real.exp d := by
    rw [logYRaw, logYRaw, ← trapz_mul_right]
    refine trapz_congr (fun j hj => ?_) (fun _ _ => rfl)
    have hg : s.grid = linspace a b 1000 := by rw [Spline.grid, hlo, hhi]
    have hmem : a ≤ s.grid.get j ∧ s.grid.get j ≤ b := by
      rw [hg] at hj ⊢
      exact linspace_mem h.lt.le (by norm_num) hj
    rw [hN, id, hadd _ hmem, Real.exp_add]
  by_cases hx : a ≤ x ∧ x ≤ b
  · rw [Spline.logYEval, Spline.logYEval, h.proj_in _ hcd x hx, h.proj_in _ hc x hx, n1, n2, F.mul_fin, F.mul_fin,
      hadd x hx, hraw, Real.exp_add]
    rw [F.fin_inj]
    have := (Real.exp_pos d).ne'
    generalize logYRaw s s.grid id c = R at *
    field_simp
  · have hx' : x < a ∨ b < x := by
      by_contra hcon; push Not at hcon; exact hx hcon
    rw [Spline.logYEval, Spline.logYEval, h.proj_out _ x hx', h.proj_out _ x hx', n1, n2, F.mul_fin, F.mul_fin,
      zero_mul, zero_mul]

/-- (LogYBSpline) The normalised log-Y spline integrates to exactly 1 on its grid, unconditionally. -/
theorem logY_unit_integral (nDf k : ℕ) (a b : ℝ) (hk : 2 ≤ k) (hn : k ≤ nDf)
    (hgap : 1 / 1000000 ≤ (b - a) / ((nDf : ℝ) - k + 1))
    (s : Spline) (hs : Spline.init nDf none none a b k = .ok s)
    (c : ℕ → ℝ) (hc : ∀ i < nDf, -F.BIG < c i) :
    trapzF s.grid.len (fun j => s.logYEval true (fun i => F.fin (c i)) (s.grid.get j)) (fun j => F.fin (s.grid.get j))
      = F.fin 1 := by
  have h : DefaultOK nDf k a b s := ⟨hk, hn, hgap, hs⟩
  obtain ⟨ho, hN, hlo, hhi, -, -⟩ := init_default_eq (by omega) hn hs
  obtain ⟨p1, n1⟩ := h.norm_eq c hc
  have : F.fin 1 = F.fin (trapz s.grid.len (fun j => Real.exp (einsum s.N (fun i => s.bBases i (s.grid.get j)) c)
      * (1 / logYRaw s s.grid id c)) s.grid.get) := by
    have hr : logYRaw s s.grid id c = trapz s.grid.len
        (fun j => Real.exp (einsum s.N (fun i => s.bBases i (s.grid.get j)) c)) s.grid.get := by
      simp only [logYRaw, id]
    rw [hr] at p1 ⊢
    rw [F.fin_inj]
    exact (trapz_normalise s.grid.len (fun j => Real.exp (einsum s.N (fun i => s.bBases i (s.grid.get j)) c)) s.grid.get
      p1.ne').symm
  rw [this, ← trapzF_fin]
  refine trapzF_congr (fun j hj => ?_) (fun _ _ => rfl)
  have hg : s.grid = linspace a b 1000 := by rw [Spline.grid, hlo, hhi]
  have hmem : a ≤ s.grid.get j ∧ s.grid.get j ≤ b := by
    rw [hg] at hj ⊢
    exact linspace_mem h.lt.le (by norm_num) hj
  rw [Spline.logYEval, h.proj_in c hc _ hmem, n1, F.mul_fin, hN]

/-! ### LogX–LogY -/

theorem DefaultOK.xyproj {nDf k a b s} (h : DefaultOK nDf k (Real.log a) (Real.log b) s) (c : ℕ → ℝ)
    (hc : ∀ i < nDf, -F.BIG < c i) (x : ℝ) :
    (Real.log a ≤ Real.log x ∧ Real.log x ≤ Real.log b →
      logYProject s.N (fun i => s.logXYBases i x) (fun i => F.fin (c i))
        = F.fin (Real.exp (einsum s.N (fun i => s.bBases i (Real.log x)) c))) ∧
    (Real.log x < Real.log a ∨ Real.log b < Real.log x →
      logYProject s.N (fun i => s.logXYBases i x) (fun i => F.fin (c i)) = F.fin 0) := by
  obtain ⟨ho, hN, hlo, hhi, -, -⟩ := init_default_eq (by have := h.hk; omega) h.hn h.hs
  have e : (fun i => s.logXYBases i x) = fun i => s.logYBases i (Real.log x) := by
    funext i; rw [Spline.logXYBases, Spline.logYBases]; split_ifs <;> rfl
  rw [e]
  constructor
  · intro hx; rw [h.proj_in c hc _ hx, hN]
  · intro hx; exact h.proj_out c _ hx

theorem DefaultOK.xynorm_eq {nDf k a b s} (h : DefaultOK nDf k (Real.log a) (Real.log b) s) (ha : 0 < a) (hb : 0 < b)
    (c : ℕ → ℝ) (hc : ∀ i < nDf, -F.BIG < c i) :
    0 < logYRaw s s.logXYGrid Real.log c ∧
    logYNorm true s.N s.logXYGrid.len (fun i j => s.logXYBases i (s.logXYGrid.get j)) s.logXYGrid.get
      (fun i => F.fin (c i)) = F.fin (1 / logYRaw s s.logXYGrid Real.log c) := by
  obtain ⟨ho, hN, hlo, hhi, -, -⟩ := init_default_eq (by have := h.hk; omega) h.hn h.hs
  have hab : a < b := (Real.log_lt_log_iff ha hb).1 h.lt
  have hg : s.logXYGrid = linspace a b 1500 := by rw [Spline.logXYGrid, hlo, hhi, Real.exp_log ha, Real.exp_log hb]
  have hpos : 0 < logYRaw s s.logXYGrid Real.log c := by
    rw [logYRaw, hg]
    exact trapz_pos (by change 2 ≤ 1500; norm_num) (fun _ _ => Real.exp_pos _)
      (fun i _ => linspace_strictMono hab (by norm_num) (Nat.lt_succ_self i))
  refine ⟨hpos, ?_⟩
  rw [logYNorm, if_pos rfl]
  have e : trapzF s.logXYGrid.len (fun j => logYProject s.N (fun i => s.logXYBases i (s.logXYGrid.get j))
      fun i => F.fin (c i)) (fun j => F.fin (s.logXYGrid.get j)) = F.fin (logYRaw s s.logXYGrid Real.log c) := by
    rw [logYRaw, ← trapzF_fin]
    refine trapzF_congr (fun j hj => ?_) (fun _ _ => rfl)
    have hmem : a ≤ s.logXYGrid.get j ∧ s.logXYGrid.get j ≤ b := by
      rw [hg] at hj ⊢
      exact linspace_mem hab.le (by norm_num) hj
    exact (h.xyproj c hc _).1 ⟨Real.log_le_log ha hmem.1, Real.log_le_log (ha.trans_le hmem.1) hmem.2⟩
  rw [e, F.div_fin hpos.ne']

/-- **C10** for LogXLogYBSpline: positive and finite on `[a,b]`, exactly 0 at every positive `x` outside. -/
theorem C10_logXlogY_zero_outside_positive_inside (nDf k : ℕ) (a b : ℝ) (ha : 0 < a) (hb : 0 < b) (hk : 2 ≤ k)
    (hn : k ≤ nDf) (hgap : 1 / 1000000 ≤ (Real.log b - Real.log a) / ((nDf : ℝ) - k + 1))
    (s : Spline) (hs : logXInit nDf none none a b k = .ok s) (nrm : Bool)
    (c : ℕ → ℝ) (hc : ∀ i < nDf, -F.BIG < c i) (x : ℝ) (hx0 : 0 < x) :
    (a ≤ x ∧ x ≤ b → ∃ v : ℝ, 0 < v ∧ s.logXYEval nrm (fun i => F.fin (c i)) x = F.fin v) ∧
    (x < a ∨ b < x → s.logXYEval nrm (fun i => F.fin (c i)) x = F.fin 0) := by
  have h : DefaultOK nDf k (Real.log a) (Real.log b) s := ⟨hk, hn, hgap, hs⟩
  obtain ⟨hpos, hnorm⟩ := h.xynorm_eq ha hb c hc
  have hnrm : ∃ w : ℝ, 0 < w ∧ logYNorm nrm s.N s.logXYGrid.len
      (fun i j => s.logXYBases i (s.logXYGrid.get j)) s.logXYGrid.get (fun i => F.fin (c i)) = F.fin w := by
    cases nrm
    · exact ⟨1, by norm_num, by simp [logYNorm]⟩
    · exact ⟨_, by positivity, hnorm⟩
  obtain ⟨w, hw, hweq⟩ := hnrm
  constructor
  · intro hx
    refine ⟨Real.exp (einsum s.N (fun i => s.bBases i (Real.log x)) c) * w, mul_pos (Real.exp_pos _) hw, ?_⟩
    rw [Spline.logXYEval, (h.xyproj c hc x).1 ⟨Real.log_le_log ha hx.1, Real.log_le_log hx0 hx.2⟩, hweq, F.mul_fin]
  · intro hx
    rw [Spline.logXYEval, (h.xyproj c hc x).2, hweq, F.mul_fin, zero_mul]
    rcases hx with hx | hx
    · exact Or.inl (Real.log_lt_log hx0 hx)
    · exact Or.inr (Real.log_lt_log hb hx)

/-- (LogXLogYBSpline) -/
theorem logXlogY_unit_integral (nDf k : ℕ) (a b : ℝ) (ha : 0 < a) (hb : 0 < b) (hk : 2 ≤ k) (hn : k ≤ nDf)
    (hgap : 1 / 1000000 ≤ (Real.log b - Real.log a) / ((nDf : ℝ) - k + 1))
    (s : Spline) (hs : logXInit nDf none none a b k = .ok s)
    (c : ℕ → ℝ) (hc : ∀ i < nDf, -F.BIG < c i) :
    trapzF s.logXYGrid.len (fun j => s.logXYEval true (fun i => F.fin (c i)) (s.logXYGrid.get j))
      (fun j => F.fin (s.logXYGrid.get j)) = F.fin 1 := by
  have h : DefaultOK nDf k (Real.log a) (Real.log b) s := ⟨hk, hn, hgap, hs⟩
  obtain ⟨ho, hN, hlo, hhi, -, -⟩ := init_default_eq (by omega) hn hs
  have hab : a < b := (Real.log_lt_log_iff ha hb).1 h.lt
  obtain ⟨p1, n1⟩ := h.xynorm_eq ha hb c hc
  have hg : s.logXYGrid = linspace a b 1500 := by rw [Spline.logXYGrid, hlo, hhi, Real.exp_log ha, Real.exp_log hb]
  have : F.fin 1 = F.fin (trapz s.logXYGrid.len (fun j => Real.exp (einsum s.N
      (fun i => s.bBases i (Real.log (s.logXYGrid.get j))) c) * (1 / logYRaw s s.logXYGrid Real.log c)) s.logXYGrid.get) := by
    rw [F.fin_inj]
    exact (trapz_normalise _ _ _ p1.ne').symm
  rw [this, ← trapzF_fin]
  refine trapzF_congr (fun j hj => ?_) (fun _ _ => rfl)
  have hmem : a ≤ s.logXYGrid.get j ∧ s.logXYGrid.get j ≤ b := by
    rw [hg] at hj ⊢
    exact linspace_mem hab.le (by norm_num) hj
  rw [Spline.logXYEval, (h.xyproj c hc _).1 ⟨Real.log_le_log ha hmem.1, Real.log_le_log (ha.trans_le hmem.1) hmem.2⟩,
    n1, F.mul_fin]

example : ∃ s, Spline.init 6 none none 0 1 4 = .ok s ∧
    s.logYEval true (fun i => F.fin (if i = 0 then 0 else if i = 1 then 3 else -2)) 7 = F.fin 0 := by
  obtain ⟨s, hs, _⟩ := C16_default_knots 6 4 0 1 (by norm_num) (by norm_num)
  refine ⟨s, hs, (C10_logY_zero_outside_positive_inside 6 4 0 1 (by norm_num) (by norm_num) (by norm_num) s hs true
    (fun i => if i = 0 then 0 else if i = 1 then 3 else -2) ?_ 7).2 (by norm_num)⟩
  intro i _
  have : F.BIG > 2 := by norm_num [F.BIG]
  split_ifs <;> linarith

/-! ## C06 in the user's terms: the grid is the equally spaced grid on the requested `xrange` -/

theorem init_range {nDf k : ℕ} {kn ik : Option (Arr ℝ)} {a b : ℝ} {s : Spline}
    (hs : Spline.init nDf kn ik a b k = .ok s) : s.lo = a ∧ s.hi = b := by
  have fin : ∀ t : Arr ℝ, ((if t.len = nDf + k then pure ⟨k, nDf, a, b, t⟩ else throw InitErr.assertion :
      Except InitErr Spline) = .ok s) → s.lo = a ∧ s.hi = b := by
    intro t h
    split_ifs at h
    · simp only [pure, Except.pure, Except.ok.injEq] at h
      subst h; exact ⟨rfl, rfl⟩
  unfold Spline.init at hs
  cases kn with
  | some t => exact fin t hs
  | none =>
    cases ik with
    | some u =>
      by_cases h : u.len < 2
      · simp only [pure_bind, h, if_true] at hs; cases hs
      · simp only [pure_bind, h, if_false] at hs; exact fin _ hs
    | none =>
      by_cases h1 : nDf + 2 < k
      · simp only [h1, if_true] at hs; cases hs
      · by_cases h : (linspace a b (nDf + 2 - k)).len < 2
        · simp only [h1, pure_bind, h, if_false, if_true] at hs; cases hs
        · simp only [h1, pure_bind, h, if_false] at hs; exact fin _ hs

/-- **C06** (BSpline, any knots). If the raw spline has non-zero trapezoid integral over the 1000-point grid on
`xrange = (a,b)`, the normalised spline has integral exactly 1 over it. -/
theorem C06_bspline_unit_integral (nDf k : ℕ) (kn ik : Option (Arr ℝ)) (a b : ℝ) (s : Spline)
    (hs : Spline.init nDf kn ik a b k = .ok s) (c : ℕ → ℝ)
    (h : trapz 1000 (fun j => s.bEval false c ((linspace a b 1000).get j)) (linspace a b 1000).get ≠ 0) :
    trapz 1000 (fun j => s.bEval true c ((linspace a b 1000).get j)) (linspace a b 1000).get = 1 := by
  obtain ⟨h1, h2⟩ := init_range hs
  have := bspline_unit_integral s c
  rw [Spline.grid, h1, h2] at this
  exact this h

/-- **C06** (BasisSpline, i.e. M-splines, any knots). -/
theorem C06_mspline_unit_integral (nDf k : ℕ) (kn ik : Option (Arr ℝ)) (a b : ℝ) (s : Spline)
    (hs : Spline.init nDf kn ik a b k = .ok s) (c : ℕ → ℝ)
    (h : trapz 1000 (fun j => s.mEval false c ((linspace a b 1000).get j)) (linspace a b 1000).get ≠ 0) :
    trapz 1000 (fun j => s.mEval true c ((linspace a b 1000).get j)) (linspace a b 1000).get = 1 := by
  obtain ⟨h1, h2⟩ := init_range hs
  have := mspline_unit_integral s c
  rw [Spline.grid, h1, h2] at this
  exact this h

/-- **C06** (LogXBSpline, any knots): the integral is over the grid equally spaced in `x` itself, not in `log x`. -/
theorem C06_logX_unit_integral (nDf k : ℕ) (kn ik : Option (Arr ℝ)) (a b : ℝ) (ha : 0 < a) (hb : 0 < b) (s : Spline)
    (hs : logXInit nDf kn ik a b k = .ok s) (c : ℕ → ℝ)
    (h : trapz 1000 (fun j => s.logXEval false c ((linspace a b 1000).get j)) (linspace a b 1000).get ≠ 0) :
    trapz 1000 (fun j => s.logXEval true c ((linspace a b 1000).get j)) (linspace a b 1000).get = 1 := by
  obtain ⟨h1, h2⟩ := init_range hs
  have := logX_unit_integral s c
  rw [Spline.logXGrid, h1, h2, Real.exp_log ha, Real.exp_log hb] at this
  exact this h

/-- **C06** (LogYBSpline): unconditional. -/
theorem C06_logY_unit_integral (nDf k : ℕ) (a b : ℝ) (hk : 2 ≤ k) (hn : k ≤ nDf)
    (hgap : 1 / 1000000 ≤ (b - a) / ((nDf : ℝ) - k + 1))
    (s : Spline) (hs : Spline.init nDf none none a b k = .ok s)
    (c : ℕ → ℝ) (hc : ∀ i < nDf, -F.BIG < c i) :
    trapzF 1000 (fun j => s.logYEval true (fun i => F.fin (c i)) ((linspace a b 1000).get j))
      (fun j => F.fin ((linspace a b 1000).get j)) = F.fin 1 := by
  obtain ⟨h1, h2⟩ := init_range hs
  have := logY_unit_integral nDf k a b hk hn hgap s hs c hc
  rw [Spline.grid, h1, h2] at this
  exact this

/-- **C06** (LogXLogYBSpline): unconditional, on the 1500-point grid equally spaced in `x`. -/
theorem C06_logXlogY_unit_integral (nDf k : ℕ) (a b : ℝ) (ha : 0 < a) (hb : 0 < b) (hk : 2 ≤ k) (hn : k ≤ nDf)
    (hgap : 1 / 1000000 ≤ (Real.log b - Real.log a) / ((nDf : ℝ) - k + 1))
    (s : Spline) (hs : logXInit nDf none none a b k = .ok s)
    (c : ℕ → ℝ) (hc : ∀ i < nDf, -F.BIG < c i) :
    trapzF 1500 (fun j => s.logXYEval true (fun i => F.fin (c i)) ((linspace a b 1500).get j))
      (fun j => F.fin ((linspace a b 1500).get j)) = F.fin 1 := by
  obtain ⟨h1, h2⟩ := init_range hs
  have := logXlogY_unit_integral nDf k a b ha hb hk hn hgap s hs c hc
  rw [Spline.logXYGrid, h1, h2, Real.exp_log ha, Real.exp_log hb] at this
  exact this

/-! ## C14 — least squares -/

open Matrix

section
variable {m n : ℕ} (B : Matrix (Fin m) (Fin n) ℝ) (y : Fin m → ℝ)

/-- **C14.** The residual is orthogonal to every basis column (normal equations). -/
theorem C14_residual_orthogonal (h : IsUnit (Bᵀ * B).det) :
    Bᵀ *ᵥ (y - B *ᵥ getCoefficients B y) = 0 := by
  rw [mulVec_sub, mulVec_mulVec, getCoefficients, mulVec_mulVec, ← Matrix.mul_assoc, Matrix.mul_nonsing_inv _ h,
    Matrix.one_mul, sub_self]

/-- **C14.** No other coefficient vector has a smaller sum of squared residuals; equality only for the same
coefficients. -/
theorem C14_least_squares (h : IsUnit (Bᵀ * B).det) (β : Fin n → ℝ) :
    ∑ j, (y j - (B *ᵥ getCoefficients B y) j) ^ 2 ≤ ∑ j, (y j - (B *ᵥ β) j) ^ 2 ∧
    (∑ j, (y j - (B *ᵥ β) j) ^ 2 = ∑ j, (y j - (B *ᵥ getCoefficients B y) j) ^ 2 → β = getCoefficients B y) := by
  set α := getCoefficients B y with hα
  have horth := C14_residual_orthogonal B y h
  rw [← hα] at horth
  set r := y - B *ᵥ α with hr
  have hcross : r ⬝ᵥ (B *ᵥ (α - β)) = 0 := by
    rw [Matrix.dotProduct_mulVec, ← Matrix.mulVec_transpose, horth, zero_dotProduct]
  have hsplit : ∑ j, (y j - (B *ᵥ β) j) ^ 2
      = ∑ j, (y j - (B *ᵥ α) j) ^ 2 + ∑ j, ((B *ᵥ (α - β)) j) ^ 2 := by
    have e : ∀ j, (y j - (B *ᵥ β) j) ^ 2 = (y j - (B *ᵥ α) j) ^ 2 + ((B *ᵥ (α - β)) j) ^ 2
        + 2 * (r j * (B *ᵥ (α - β)) j) := by
      intro j
      rw [hr, mulVec_sub]; simp only [Pi.sub_apply]; ring
    rw [sum_congr rfl fun j _ => e j, sum_add_distrib, sum_add_distrib, ← mul_sum]
    have : ∑ j, r j * (B *ᵥ (α - β)) j = 0 := hcross
    rw [this]; ring
  have hnn : 0 ≤ ∑ j, ((B *ᵥ (α - β)) j) ^ 2 := sum_nonneg fun _ _ => sq_nonneg _
  refine ⟨by linarith, fun heq => ?_⟩
  have hz : ∑ j, ((B *ᵥ (α - β)) j) ^ 2 = 0 := by linarith
  have hz' : B *ᵥ (α - β) = 0 := by
    funext j
    have := (sum_eq_zero_iff_of_nonneg (fun i _ => sq_nonneg _)).1 hz j (mem_univ _)
    exact pow_eq_zero_iff (two_ne_zero) |>.1 this
  have h0 : (Bᵀ * B) *ᵥ (α - β) = 0 := by rw [← mulVec_mulVec, hz', mulVec_zero]
  have : α - β = 0 := by
    have h1 : ((Bᵀ * B)⁻¹ * (Bᵀ * B)) *ᵥ (α - β) = 0 := by rw [← mulVec_mulVec, h0, mulVec_zero]
    rwa [Matrix.nonsing_inv_mul _ h, one_mulVec] at h1
  exact (sub_eq_zero.1 this).symm

/-- **C14.** Data generated by a spline are recovered exactly, coefficients and values. -/
theorem C14_exact_recovery (h : IsUnit (Bᵀ * B).det) (β : Fin n → ℝ) :
    getCoefficients B (B *ᵥ β) = β ∧ fittedValues B (B *ᵥ β) = B *ᵥ β := by
  have e : getCoefficients B (B *ᵥ β) = β := by
    rw [getCoefficients, mulVec_mulVec, Matrix.mul_assoc, Matrix.nonsing_inv_mul _ h, one_mulVec]
  exact ⟨e, by rw [fittedValues, e]⟩

end

example : let B : Matrix (Fin 3) (Fin 2) ℝ := !![1, 0; 1, 1; 1, 2]
    IsUnit (Bᵀ * B).det := by
  simp [Matrix.det_fin_two, Matrix.mul_apply, Fin.sum_univ_succ]; norm_num

end GW
end
