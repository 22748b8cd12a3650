import Verif.Lemmas.BSplineSmooth
import Verif.Props.SplineProject
import Mathlib.Analysis.Calculus.MeanValue
import Mathlib.Analysis.SpecialFunctions.ExpDeriv
import Mathlib.Analysis.SpecialFunctions.Log.Deriv

/-! # Property C111: smoothness of the splines on their domain -/

open Finset
noncomputable section
open Classical
namespace GW

theorem DefaultOK.simple {nDf k a b s} (h : DefaultOK nDf k a b s) (i m : ℕ) : SimpleKnots s.knots.get i m := by
  intro j _ _
  rw [init_default_gap (by have := h.hk; omega) h.hn h.hs]
  exact h.hgap

/-- the un-normalised evaluation on the domain is the sum of the recursion's components -/
theorem DefaultOK.eval_eq {nDf k a b s} (h : DefaultOK nDf k a b s) (c : ℕ → ℝ) (x : ℝ) (hx : x ∈ Set.Icc a b) :
    s.bEval false c x = ∑ i ∈ range nDf, bsp s.knots.get x k i * c i := by
  obtain ⟨ho, hN, hlo, hhi, -, -⟩ := init_default_eq (by have := h.hk; omega) h.hn h.hs
  have hout : ¬ s.outside x := by
    unfold Spline.outside; rw [hlo, hhi]; push Not; exact hx
  simp only [Spline.bEval, bProject, bNorm, einsum, hN, Spline.bBases, if_neg hout, Spline.bBase_eq, ho]
  simp

/-- summation by parts -/
theorem sum_by_parts (n : ℕ) (c M : ℕ → ℝ) : ∑ i ∈ range (n + 1), c i * (M i - M (i + 1)) =
    c 0 * M 0 - c n * M (n + 1) + ∑ i ∈ range n, (c (i + 1) - c i) * M (i + 1) := by
  induction n with
  | zero => simp; ring
  | succ n ih => rw [sum_range_succ, ih, sum_range_succ]; ring

/-- the components of order `k+1`, shifted by one, are those of the default spline of one order less and one
function less on the same range -/
theorem DefaultOK.shift {nDf k a b s} (h : DefaultOK (nDf + 1) (k + 1) a b s) {s' : Spline}
    (hs' : Spline.init nDf none none a b k = .ok s') (hk : 1 ≤ k) (j : ℕ) :
    s'.knots.get j = s.knots.get (j + 1) := by
  have hn : k ≤ nDf := by have := h.hn; omega
  obtain ⟨-, -, -, -, -, g⟩ := init_default_eq (by omega) h.hn h.hs
  obtain ⟨-, -, -, -, -, g'⟩ := init_default_eq hk hn hs'
  rw [g, g']
  push_cast
  rw [show (nDf : ℝ) + 1 - (k + 1) + 1 = (nDf : ℝ) - k + 1 by ring]
  ring

theorem basis_knot_shift {t t' : ℕ → ℝ} (h : ∀ j, t' j = t (j + 1)) (x : ℝ) (k : ℕ) :
    ∀ i, basis t' x k i = basis t x k (i + 1) := by
  induction k using Nat.strong_induction_on with
  | _ k ih =>
    intro i
    match k with
    | 0 => rfl
    | 1 => rw [basis_one, basis_one, h, h]
    | k + 2 =>
      rw [basis_add_two, basis_add_two, ih (k + 1) (by omega), ih (k + 1) (by omega), h, h,
        show i + (k + 2) + 1 = i + 1 + (k + 2) by ring]

/-- derivative formula for the sum, from that of the components -/
theorem DefaultOK.sum_deriv {n k a b s} (h : DefaultOK (n + 1) (k + 2) a b s) (c : ℕ → ℝ) (x : ℝ) (hx : a ≤ x ∧ x < b) :
    ∑ i ∈ range (n + 1), (basis s.knots.get x (k + 1) i - basis s.knots.get x (k + 1) (i + 1)) * c i =
      ∑ i ∈ range n, bsp s.knots.get x (k + 1) (i + 1) * ((c (i + 1) - c i) / ((b - a) / ((n : ℝ) - k))) := by
  have hk := h.hk
  have hn := h.hn
  have hmono := (init_default_mono (by omega) h.hn h.lt h.hs)
  have hfirst := init_default_first (by omega) h.hn h.hs
  have hlast := init_default_last (by omega) h.hn h.hs
  have z0 : basis s.knots.get x (k + 1) 0 = 0 :=
    basis_eq_zero_of_ge hmono.monotone _ _ (by
      rw [show 0 + (k + 1) = k + 2 - 1 by omega, hfirst]; exact hx.1)
  have z1 : basis s.knots.get x (k + 1) (n + 1) = 0 :=
    basis_eq_zero_of_lt hmono.monotone _ _ (by rw [hlast]; exact hx.2)
  have hd : (n : ℝ) - k > 0 := by
    have : (k : ℝ) + 2 ≤ n + 1 := by exact_mod_cast hn
    linarith
  have hb : 0 < b - a := by have := h.lt; linarith
  rw [show (∑ i ∈ range (n + 1), (basis s.knots.get x (k + 1) i - basis s.knots.get x (k + 1) (i + 1)) * c i) =
    ∑ i ∈ range (n + 1), c i * (basis s.knots.get x (k + 1) i - basis s.knots.get x (k + 1) (i + 1)) from
    sum_congr rfl fun i _ => mul_comm _ _, sum_by_parts, z0, z1]
  simp only [mul_zero, sub_zero, zero_add]
  refine sum_congr rfl fun i _ => ?_
  rw [bsp]
  obtain ⟨-, -, -, -, -, hget⟩ := init_default_eq (by omega) h.hn h.hs
  rw [hget, hget]
  push_cast
  rw [show (n : ℝ) + 1 - (k + 2) + 1 = n - k by ring]
  have : (k : ℝ) + 1 ≠ 0 := by positivity
  field_simp
  ring

/-- one component of order at least two, in B-form, has this right derivative -/
theorem DefaultOK.bsp_right {nDf k a b s} (h : DefaultOK nDf (k + 2) a b s) (i : ℕ) (x : ℝ) :
    HasDerivWithinAt (fun y => bsp s.knots.get y (k + 2) i)
      (basis s.knots.get x (k + 1) i - basis s.knots.get x (k + 1) (i + 1)) (Set.Ici x) x := by
  have hs := h.simple i (k + 2)
  have hg := hs.gap (k + 2) (by omega) le_rfl
  have hne : s.knots.get (i + (k + 2)) - s.knots.get i ≠ 0 := by
    have := knotEps_pos; intro h0; rw [h0] at hg; linarith
  have := (basis_right_deriv k i hs x).const_mul ((s.knots.get (i + (k + 2)) - s.knots.get i) / ((k + 2 : ℕ) : ℝ))
  refine this.congr_deriv ?_
  push_cast
  have : (k : ℝ) + 2 ≠ 0 := by positivity
  field_simp

theorem DefaultOK.bsp_deriv {nDf k a b s} (h : DefaultOK nDf (k + 3) a b s) (i : ℕ) (x : ℝ) :
    HasDerivAt (fun y => bsp s.knots.get y (k + 3) i)
      (basis s.knots.get x (k + 2) i - basis s.knots.get x (k + 2) (i + 1)) x := by
  have hs := h.simple i (k + 3)
  have hg := hs.gap (k + 3) (by omega) le_rfl
  have hne : s.knots.get (i + (k + 3)) - s.knots.get i ≠ 0 := by
    have := knotEps_pos; intro h0; rw [h0] at hg; linarith
  have := (basis_hasDerivAt k i hs x).const_mul ((s.knots.get (i + (k + 3)) - s.knots.get i) / ((k + 3 : ℕ) : ℝ))
  refine this.congr_deriv ?_
  push_cast
  have : (k : ℝ) + 3 ≠ 0 := by positivity
  field_simp

theorem DefaultOK.sum_contDiff {nDf k a b s} (h : DefaultOK nDf (k + 2) a b s) (c : ℕ → ℝ) :
    ContDiff ℝ k fun x => ∑ i ∈ range nDf, bsp s.knots.get x (k + 2) i * c i := by
  refine ContDiff.sum fun i _ => ?_
  exact (contDiff_const.mul (basis_contDiff k i (h.simple i _))).mul contDiff_const

/-! ## Statements -/

/-- **C111.** A B-spline of order `k ≥ 2` (degree `k-1`) on the default knots, with any coefficients, is `k - 2` times
continuously differentiable on its whole closed domain `[a,b]`, the interior knots included, normalised or not. -/
theorem C111_smooth (nDf k : ℕ) (a b : ℝ) (hk : 2 ≤ k) (hn : k ≤ nDf)
    (hgap : 1 / 1000000 ≤ (b - a) / ((nDf : ℝ) - k + 1))
    (s : Spline) (hs : Spline.init nDf none none a b k = .ok s) (nrm : Bool) (c : ℕ → ℝ) :
    ContDiffOn ℝ (k - 2 : ℕ) (fun x => s.bEval nrm c x) (Set.Icc a b) := by
  have h : DefaultOK nDf k a b s := ⟨hk, hn, hgap, hs⟩
  obtain ⟨k, rfl⟩ : ∃ j, k = j + 2 := ⟨k - 2, by omega⟩
  have hf : ContDiffOn ℝ k (fun x => s.bEval false c x) (Set.Icc a b) :=
    (h.sum_contDiff c).contDiffOn.congr fun x hx => h.eval_eq c x hx
  cases nrm with
  | false => exact hf
  | true =>
    have : (fun x => s.bEval true c x) = fun x => s.bEval false c x *
        bNorm true s.N s.grid.len (fun i j => s.bBases i (s.grid.get j)) s.grid.get c := by
      funext x; simp [Spline.bEval, bProject, bNorm]
    rw [this]
    exact hf.mul contDiffOn_const

/-- **C111**, LogXBSpline: the same in `x` itself, on `[a,b]` with `0 < a`. -/
theorem C111_logX_smooth (nDf k : ℕ) (a b : ℝ) (ha : 0 < a) (hk : 2 ≤ k) (hn : k ≤ nDf)
    (hgap : 1 / 1000000 ≤ (Real.log b - Real.log a) / ((nDf : ℝ) - k + 1))
    (s : Spline) (hs : logXInit nDf none none a b k = .ok s) (c : ℕ → ℝ) :
    ContDiffOn ℝ (k - 2 : ℕ) (fun x => s.logXEval false c x) (Set.Icc a b) := by
  have h0 := C111_smooth nDf k (Real.log a) (Real.log b) hk hn hgap s hs false c
  have : ∀ x, s.logXEval false c x = s.bEval false c (Real.log x) := by
    intro x; simp [Spline.logXEval, Spline.bEval, bProject, bNorm, Spline.logXBases]
  simp only [this]
  refine h0.comp (t := Set.Icc (Real.log a) (Real.log b)) (fun x hx => ?_) (fun x hx => ?_)
  · exact (Real.contDiffAt_log.2 (ha.trans_le hx.1).ne').contDiffWithinAt
  · exact ⟨Real.log_le_log ha hx.1, Real.log_le_log (ha.trans_le hx.1) hx.2⟩

/-- **C111**, LogYBSpline: the exponential of a spline is as smooth as the spline, normalised or not. -/
theorem C111_logY_smooth (nDf k : ℕ) (a b : ℝ) (hk : 2 ≤ k) (hn : k ≤ nDf)
    (hgap : 1 / 1000000 ≤ (b - a) / ((nDf : ℝ) - k + 1))
    (s : Spline) (hs : Spline.init nDf none none a b k = .ok s) (nrm : Bool)
    (c : ℕ → ℝ) (hc : ∀ i < nDf, -F.BIG < c i) :
    ∃ f : ℝ → ℝ, (∀ x ∈ Set.Icc a b, s.logYEval nrm (fun i => F.fin (c i)) x = F.fin (f x)) ∧
      ContDiffOn ℝ (k - 2 : ℕ) f (Set.Icc a b) := by
  have h : DefaultOK nDf k a b s := ⟨hk, hn, hgap, hs⟩
  obtain ⟨hpos, hnorm⟩ := h.norm_eq c hc
  obtain ⟨ho, hN, -⟩ := init_default_eq (by omega) hn hs
  obtain ⟨w, hweq⟩ : ∃ w : ℝ,
      logYNorm nrm s.N s.grid.len (fun i j => s.logYBases i (s.grid.get j)) s.grid.get (fun i => F.fin (c i)) = F.fin w := by
    cases nrm
    · exact ⟨1, by simp [logYNorm]⟩
    · exact ⟨_, hnorm⟩
  refine ⟨fun x => Real.exp (s.bEval false c x) * w, fun x hx => ?_, ?_⟩
  · rw [Spline.logYEval, h.proj_in c hc x hx, hweq, F.mul_fin]
    simp [Spline.bEval, bProject, bNorm, hN]
  · exact (Real.contDiff_exp.comp_contDiffOn (C111_smooth nDf k a b hk hn hgap s hs false c)).mul contDiffOn_const

/-- **C111.** The derivative of an order `k ≥ 3` spline with `n` coefficients is, at every interior point of the domain,
the order `k - 1` spline with `n - 1` functions on the same range whose coefficients are the successive differences of
the coefficients divided by the knot spacing. -/
theorem C111_derivative (n k : ℕ) (a b : ℝ) (hk : 2 ≤ k) (hn : k ≤ n)
    (hgap : 1 / 1000000 ≤ (b - a) / ((n : ℝ) - k + 1))
    (s s' : Spline) (hs : Spline.init (n + 1) none none a b (k + 1) = .ok s)
    (hs' : Spline.init n none none a b k = .ok s') (c : ℕ → ℝ) (x : ℝ) (hx : a < x ∧ x < b) :
    HasDerivAt (fun y => s.bEval false c y)
      (s'.bEval false (fun i => (c (i + 1) - c i) / ((b - a) / ((n : ℝ) - k + 1))) x) x := by
  have h' : DefaultOK n k a b s' := ⟨hk, hn, hgap, hs'⟩
  have h : DefaultOK (n + 1) (k + 1) a b s := ⟨by omega, by omega, by
    push_cast; rw [show (n : ℝ) + 1 - (k + 1) + 1 = (n : ℝ) - k + 1 by ring]; exact hgap, hs⟩
  rw [h'.eval_eq _ x ⟨hx.1.le, hx.2.le⟩]
  obtain ⟨k, rfl⟩ : ∃ j, k = j + 2 := ⟨k - 2, by omega⟩
  have hsum := h.sum_deriv (k := k + 1) c x ⟨hx.1.le, hx.2⟩
  have hd : HasDerivAt (fun y => ∑ i ∈ range (n + 1), bsp s.knots.get y (k + 3) i * c i)
      (∑ i ∈ range (n + 1), (basis s.knots.get x (k + 2) i - basis s.knots.get x (k + 2) (i + 1)) * c i) x :=
    HasDerivAt.fun_sum fun i _ => (h.bsp_deriv (k := k) i x).mul_const (c i)
  rw [hsum] at hd
  refine (hd.congr_deriv ?_).congr_of_eventuallyEq ?_
  · refine sum_congr rfl fun i _ => ?_
    rw [bsp, bsp, basis_knot_shift (h.shift hs' (by omega)), h.shift hs' (by omega), h.shift hs' (by omega)]
    push_cast
    rw [show i + (k + 2) + 1 = i + 1 + (k + 1 + 1) by ring, show (n : ℝ) - (k + 2) + 1 = n - (k + 1) by ring]
    ring
  · filter_upwards [Icc_mem_nhds hx.1 hx.2] with y hy
    exact h.eval_eq c y hy

/-- **C111.** Order `k ≥ 2`: the spline moves by at most (largest difference of neighbouring coefficients) ÷ (knot
spacing) per unit of `x`. -/
theorem C111_lipschitz (nDf k : ℕ) (a b : ℝ) (hk : 2 ≤ k) (hn : k ≤ nDf)
    (hgap : 1 / 1000000 ≤ (b - a) / ((nDf : ℝ) - k + 1))
    (s : Spline) (hs : Spline.init nDf none none a b k = .ok s) (c : ℕ → ℝ) (D : ℝ)
    (hD : ∀ i, i + 1 < nDf → |c (i + 1) - c i| ≤ D) (x y : ℝ) (hx : x ∈ Set.Icc a b) (hy : y ∈ Set.Icc a b) :
    |s.bEval false c y - s.bEval false c x| ≤ D / ((b - a) / ((nDf : ℝ) - k + 1)) * |y - x| := by
  wlog hxy : x ≤ y generalizing x y
  · have := this y x hy hx (le_of_not_ge hxy)
    rw [abs_sub_comm (s.bEval false c y), abs_sub_comm y x]; exact this
  have h : DefaultOK nDf k a b s := ⟨hk, hn, hgap, hs⟩
  obtain ⟨k, rfl⟩ : ∃ j, k = j + 2 := ⟨k - 2, by omega⟩
  obtain ⟨n, rfl⟩ : ∃ m, nDf = m + 1 := ⟨nDf - 1, by omega⟩
  have hmono := (init_default_mono (by omega) h.hn h.lt h.hs)
  have hh : 0 < (b - a) / (((n + 1 : ℕ) : ℝ) - ((k + 2 : ℕ) : ℝ) + 1) := div_pos (by linarith [h.lt]) (default_den_pos hn)
  set H := (b - a) / (((n + 1 : ℕ) : ℝ) - ((k + 2 : ℕ) : ℝ) + 1) with hHdef
  have hH : H = (b - a) / ((n : ℝ) - k) := by rw [hHdef]; push_cast; ring_nf
  have hD0 : 0 ≤ D := (abs_nonneg _).trans (hD 0 (by omega))
  have hcont : ContinuousOn (fun u => ∑ i ∈ range (n + 1), bsp s.knots.get u (k + 2) i * c i) (Set.Icc x y) :=
    (h.sum_contDiff c).continuous.continuousOn
  have key := norm_image_sub_le_of_norm_deriv_right_le_segment (C := D / H) hcont
    (f' := fun u => ∑ i ∈ range (n + 1), (basis s.knots.get u (k + 1) i - basis s.knots.get u (k + 1) (i + 1)) * c i)
    (fun u _ => HasDerivWithinAt.fun_sum fun i _ => (h.bsp_right i u).mul_const (c i)) (fun u hu => by
      have hu' : a ≤ u ∧ u < b := ⟨hx.1.trans hu.1, hu.2.trans_le hy.2⟩
      rw [Real.norm_eq_abs, h.sum_deriv c u hu', ← hH]
      have hpu : ∑ i ∈ range n, bsp s.knots.get u (k + 1) (i + 1) ≤ 1 := by
        have hfirst := init_default_first (by omega) h.hn h.hs
        have hlast := init_default_last (by omega) h.hn h.hs
        have st := sum_bsp_step (x := u) hmono.monotone k 0 n
          (by rw [show 0 + (k + 1) = k + 2 - 1 by omega, hfirst]; exact hu'.1)
          (by rw [zero_add, hlast]; exact hu'.2)
        have pu := partition_of_unity_core (x := u) hmono.monotone
          (fun i => Or.inr (h.simple i 1 i le_rfl (by omega))) (k + 1) (n - k)
          (by rw [show k + 1 = k + 2 - 1 by omega, hfirst]; exact hu'.1)
          (by rw [show k + 1 + (n - k) = n + 1 by omega, hlast]; exact hu'.2)
        rw [show n - k + (k + 1) = n + 1 by omega] at pu
        simp only [zero_add] at st
        rw [pu] at st
        rw [st]
        exact le_of_eq (sum_congr rfl fun i _ => by rw [add_comm 1 i])
      have hnn : ∀ i, 0 ≤ bsp s.knots.get u (k + 1) (i + 1) := fun i =>
        mul_nonneg (div_nonneg (by linarith [hmono.monotone (show i + 1 ≤ i + 1 + (k + 1) by omega)]) (by positivity))
          (basis_nonneg hmono.monotone _ _)
      calc |∑ i ∈ range n, bsp s.knots.get u (k + 1) (i + 1) * ((c (i + 1) - c i) / H)|
          ≤ ∑ i ∈ range n, |bsp s.knots.get u (k + 1) (i + 1) * ((c (i + 1) - c i) / H)| := abs_sum_le_sum_abs _ _
        _ ≤ ∑ i ∈ range n, bsp s.knots.get u (k + 1) (i + 1) * (D / H) := sum_le_sum fun i hi => by
            rw [abs_mul, abs_of_nonneg (hnn i), abs_div, abs_of_pos hh]
            exact mul_le_mul_of_nonneg_left (div_le_div_of_nonneg_right (hD i (by have := mem_range.1 hi; omega)) hh.le) (hnn i)
        _ = (∑ i ∈ range n, bsp s.knots.get u (k + 1) (i + 1)) * (D / H) := by rw [sum_mul]
        _ ≤ 1 * (D / H) := mul_le_mul_of_nonneg_right hpu (div_nonneg hD0 hh.le)
        _ = D / H := one_mul _)
    y ⟨hxy, le_rfl⟩
  rw [h.eval_eq c x hx, h.eval_eq c y hy, abs_of_nonneg (sub_nonneg.2 hxy)]
  rwa [Real.norm_eq_abs] at key

/-- a cubic spline with ten functions on `[0,2]` is twice continuously differentiable, whatever its coefficients; its
derivative is a quadratic spline with nine -/
example (c : ℕ → ℝ) : ∃ s s' : Spline, Spline.init 10 none none 0 2 4 = .ok s ∧ Spline.init 9 none none 0 2 3 = .ok s' ∧
    ContDiffOn ℝ (2 : ℕ) (fun x => s.bEval true c x) (Set.Icc 0 2) ∧
    ∀ x, 0 < x ∧ x < 2 → HasDerivAt (fun y => s.bEval false c y) (s'.bEval false (fun i => (c (i + 1) - c i) / (2 / 7)) x) x := by
  obtain ⟨s, hs, -⟩ := C16_default_knots 10 4 0 2 (by norm_num) (by norm_num)
  obtain ⟨s', hs', -⟩ := C16_default_knots 9 3 0 2 (by norm_num) (by norm_num)
  refine ⟨s, s', hs, hs', C111_smooth 10 4 0 2 (by norm_num) (by norm_num) (by norm_num) s hs true c, fun x hx => ?_⟩
  have := C111_derivative 9 3 0 2 (by norm_num) (by norm_num) (by norm_num) s s' hs hs' c x hx
  norm_num at this ⊢
  exact this

end GW
end
