import Verif.Model.RoundingLogSpline
import Verif.Props.RoundingSplineDensity
import Verif.Props.RoundingSpins
import Verif.Lemmas.BSplineSmooth
import Mathlib.Analysis.Calculus.MeanValue

/-! # Property C149: splines in the logarithm of their argument, and the power law with a spline in redshift, in rounded arithmetic -/

open Finset
noncomputable section
open Classical
namespace GW
open F

/-! ### how fast a spline moves -/

theorem sum_indicator_le {t : ℕ → ℝ} (ht : Monotone t) (x : ℝ) (n : ℕ) :
    (∑ i ∈ range n, if t i ≤ x ∧ x < t (i + 1) then (1:ℝ) else 0) = if t 0 ≤ x ∧ x < t n then 1 else 0 := by
  induction n with
  | zero => simp
  | succ n ih =>
    rw [sum_range_succ, ih]
    have h0 := ht (Nat.zero_le n)
    have h1 := ht (Nat.le_succ n)
    simp only [Nat.succ_eq_add_one] at h1
    by_cases a : t 0 ≤ x <;> by_cases b : x < t n
    · rw [if_pos ⟨a, b⟩, if_neg (fun h => absurd h.1 (not_le.2 b)), if_pos ⟨a, by linarith⟩, add_zero]
    · by_cases c : x < t (n + 1)
      · rw [if_neg (fun h => b h.2), if_pos ⟨not_lt.1 b, c⟩, if_pos ⟨a, c⟩, zero_add]
      · rw [if_neg (fun h => b h.2), if_neg (fun h => c h.2), if_neg (fun h => c h.2), zero_add]
    · rw [if_neg (fun h => a h.1), if_neg (fun h => absurd h.1 (not_le.2 b)), if_neg (fun h => a h.1), zero_add]
    · exact absurd (h0.trans (not_lt.1 b)) a

/-- at every point, in or out of the range of the partition of unity, B-splines add up to at most one -/
theorem sum_bsp_le_one {t : ℕ → ℝ} (ht : Monotone t) (hg : ∀ i, t (i + 1) = t i ∨ knotEps ≤ t (i + 1) - t i) (x : ℝ) (k : ℕ) : ∀ n, ∑ i ∈ range n, bsp t x (k + 1) i ≤ 1 := by
  induction k with
  | zero =>
    intro n
    simp only [zero_add, bsp_one _ (hg _)]
    rw [sum_indicator_le ht]
    split_ifs <;> norm_num
  | succ k ih =>
    intro n
    refine le_trans ?_ (ih (n + 1))
    have hk : (0:ℝ) < (k:ℝ) + 1 := by positivity
    have e : ∀ i, bsp t x (k + 1 + 1) i = (x - t i) * basis t x (k + 1) i / ((k:ℝ) + 1) + (t (i + 1 + (k + 1)) - x) * basis t x (k + 1) (i + 1) / ((k:ℝ) + 1) := by
      intro i
      rw [show k + 1 + 1 = k + 2 from rfl, bsp_rec ht, add_div, show i + (k + 2) = i + 1 + (k + 1) by ring]
    have z : ∀ i, 0 ≤ (x - t i) * basis t x (k + 1) i / ((k:ℝ) + 1) ∧ 0 ≤ (t (i + (k + 1)) - x) * basis t x (k + 1) i / ((k:ℝ) + 1) := by
      intro i
      have hb := basis_nonneg ht (x := x) (k + 1) i
      constructor
      · refine div_nonneg ?_ hk.le
        rcases lt_or_ge x (t i) with h | h
        · rw [basis_eq_zero_of_lt ht _ _ h, mul_zero]
        · exact mul_nonneg (by linarith) hb
      · refine div_nonneg ?_ hk.le
        rcases lt_or_ge x (t (i + (k + 1))) with h | h
        · exact mul_nonneg (by linarith) hb
        · rw [basis_eq_zero_of_ge ht _ _ h, mul_zero]
    simp only [e, sum_add_distrib]
    have h1 : ∑ i ∈ range n, (x - t i) * basis t x (k + 1) i / ((k:ℝ) + 1) ≤ ∑ i ∈ range (n + 1), (x - t i) * basis t x (k + 1) i / ((k:ℝ) + 1) := by
      rw [sum_range_succ]; linarith [(z n).1]
    have h2 : ∑ i ∈ range n, (t (i + 1 + (k + 1)) - x) * basis t x (k + 1) (i + 1) / ((k:ℝ) + 1) ≤ ∑ i ∈ range (n + 1), (t (i + (k + 1)) - x) * basis t x (k + 1) i / ((k:ℝ) + 1) := by
      rw [sum_range_succ']; linarith [(z 0).2]
    refine (add_le_add h1 h2).trans (le_of_eq ?_)
    rw [← sum_add_distrib]
    refine sum_congr rfl fun i _ => ?_
    rw [bsp]
    push_cast
    field_simp
    ring

theorem knots_gap {t : ℕ → ℝ} {W : ℝ} (ht : ∀ i, W ≤ t (i + 1) - t i) (i k : ℕ) : k * W ≤ t (i + k) - t i := by
  induction k with
  | zero => simp
  | succ k ih => have := ht (i + k); push_cast; rw [show i + (k + 1) = i + k + 1 by ring]; linarith

/-- A spline of order two or more with coefficients up to `A` and knots at least `W` apart moves by at most `2 A / W` per unit. -/
theorem spline_lipschitz {t : ℕ → ℝ} {W A : ℝ} (ht : ∀ i, W ≤ t (i + 1) - t i) (hW : knotEps ≤ W) (k n : ℕ) (c : ℕ → ℝ) (hA : 0 ≤ A) (hc : ∀ i < n, |c i| ≤ A) (x y : ℝ) :
    |∑ i ∈ range n, bsp t y (k + 2) i * c i - ∑ i ∈ range n, bsp t x (k + 2) i * c i| ≤ 2 * A / W * |y - x| := by
  wlog hxy : x ≤ y generalizing x y
  · have := this y x (le_of_not_ge hxy)
    rw [abs_sub_comm, abs_sub_comm y x]; exact this
  have hW0 : 0 < W := lt_of_lt_of_le knotEps_pos hW
  have hmono : Monotone t := monotone_nat_of_le_succ fun i => by linarith [ht i]
  have hsimple : ∀ i m, SimpleKnots t i m := fun i m j _ _ => hW.trans (ht j)
  have hright : ∀ i u, HasDerivWithinAt (fun v => bsp t v (k + 2) i) (basis t u (k + 1) i - basis t u (k + 1) (i + 1)) (Set.Ici u) u := by
    intro i u
    have hs := hsimple i (k + 2)
    have hg := hs.gap (k + 2) (by omega) le_rfl
    have hne : t (i + (k + 2)) - t i ≠ 0 := by
      have := knotEps_pos; intro h0; rw [h0] at hg; linarith
    have := (basis_right_deriv k i hs u).const_mul ((t (i + (k + 2)) - t i) / ((k + 2 : ℕ) : ℝ))
    refine this.congr_deriv ?_
    push_cast
    have : (k : ℝ) + 2 ≠ 0 := by positivity
    field_simp
  have hcont : ContinuousOn (fun u => ∑ i ∈ range n, bsp t u (k + 2) i * c i) (Set.Icc x y) :=
    (continuous_finsetSum _ fun i _ => (continuous_const.mul (basis_continuous k i (hsimple i _))).mul continuous_const).continuousOn
  have hM : ∀ u m, ∑ i ∈ range m, basis t u (k + 1) i ≤ 1 / W := by
    intro u m
    rw [le_div_iff₀ hW0, sum_mul]
    refine le_trans (sum_le_sum fun i _ => ?_) (sum_bsp_le_one hmono (fun i => Or.inr (hW.trans (ht i))) u k m)
    rw [bsp, mul_comm]
    refine mul_le_mul_of_nonneg_right ?_ (basis_nonneg hmono _ _)
    rw [le_div_iff₀ (by positivity)]
    have := knots_gap ht i (k + 1)
    linarith
  have key := norm_image_sub_le_of_norm_deriv_right_le_segment (C := 2 * A / W) hcont
    (f' := fun u => ∑ i ∈ range n, (basis t u (k + 1) i - basis t u (k + 1) (i + 1)) * c i)
    (fun u _ => HasDerivWithinAt.fun_sum fun i _ => (hright i u).mul_const (c i)) (fun u _ => by
      rw [Real.norm_eq_abs]
      have hn : ∀ i, 0 ≤ basis t u (k + 1) i := fun i => basis_nonneg hmono _ _
      calc |∑ i ∈ range n, (basis t u (k + 1) i - basis t u (k + 1) (i + 1)) * c i|
          ≤ ∑ i ∈ range n, |(basis t u (k + 1) i - basis t u (k + 1) (i + 1)) * c i| := abs_sum_le_sum_abs _ _
        _ ≤ ∑ i ∈ range n, (basis t u (k + 1) i + basis t u (k + 1) (i + 1)) * A := sum_le_sum fun i hi => by
            rw [abs_mul]
            refine mul_le_mul ?_ (hc i (mem_range.1 hi)) (abs_nonneg _) (add_nonneg (hn i) (hn (i + 1)))
            rw [abs_le]; constructor <;> linarith [hn i, hn (i + 1)]
        _ = (∑ i ∈ range n, basis t u (k + 1) i + ∑ i ∈ range n, basis t u (k + 1) (i + 1)) * A := by rw [← sum_mul, sum_add_distrib]
        _ ≤ (1 / W + 1 / W) * A := by
            refine mul_le_mul_of_nonneg_right (add_le_add (hM u n) (le_trans ?_ (hM u (n + 1)))) hA
            rw [sum_range_succ' (fun i => basis t u (k + 1) i)]; linarith [hn 0]
        _ = 2 * A / W := by ring)
    y ⟨hxy, le_rfl⟩
  rw [abs_of_nonneg (sub_nonneg.2 hxy)]
  rwa [Real.norm_eq_abs] at key

/-- the knots continued beyond the last one in steps of `W` -/
def extKnots (len : ℕ) (t : ℕ → ℝ) (W : ℝ) (i : ℕ) : ℝ := if i < len then t i else t (len - 1) + ((i:ℝ) - ((len - 1 : ℕ) : ℝ)) * W

theorem extKnots_gap {len : ℕ} {t : ℕ → ℝ} {W : ℝ} (hlen : 0 < len) (h : ∀ i, i + 1 < len → W ≤ t (i + 1) - t i) (i : ℕ) : W ≤ extKnots len t W (i + 1) - extKnots len t W i := by
  unfold extKnots
  by_cases h1 : i + 1 < len
  · rw [if_pos h1, if_pos (by omega)]; exact h i h1
  · rw [if_neg h1]
    by_cases h2 : i < len
    · rw [if_pos h2, show i = len - 1 by omega]
      rw [Nat.cast_add, Nat.cast_one]; linarith
    · rw [if_neg h2]; push_cast; linarith

/-- what is asked of a spline for its value at a slightly wrong point: order at least two, at least as many knots as asserted, neighbouring knots at least `W ≥ 10⁻⁶` apart, numbers of moderate size -/
structure Spline.Steady (s : Spline) (W : ℝ) : Prop where
  order : 2 ≤ s.order
  len : s.knots.len = s.N + s.order
  eps : knotEps ≤ W
  steps : ∀ i, i + 1 < s.knots.len → W ≤ s.knots.get (i + 1) - s.knots.get i
  ends : ∀ j < s.knots.len, |s.lo - s.knots.get j| ≤ 2 ^ 100 ∧ |s.hi - s.knots.get j| ≤ 2 ^ 100

theorem Spline.Steady.bBases_eq {s : Spline} {W : ℝ} (h : s.Steady W) {i : ℕ} (hi : i < s.N) {x : ℝ} (hx : ¬ s.outside x) :
    s.bBases i x = bsp (extKnots s.knots.len s.knots.get W) x s.order i := by
  have hl := h.len
  unfold Spline.bBases Spline.bBase bsp
  rw [if_neg hx]
  have e : ∀ j, j < s.knots.len → extKnots s.knots.len s.knots.get W j = s.knots.get j := fun j hj => by unfold extKnots; rw [if_pos hj]
  rw [e _ (by omega), e _ (by omega), basis_congr x s.order i (t' := s.knots.get) fun j _ hj => e j (by omega)]

theorem Spline.Steady.unit {s : Spline} {W : ℝ} (h : s.Steady W) {x : ℝ} (hx : ¬ s.outside x) : ∑ i ∈ range s.N, s.bBases i x ≤ 1 := by
  have ho := h.order
  have hg := extKnots_gap (by have := h.len; omega) h.steps
  have hW0 : 0 < W := lt_of_lt_of_le knotEps_pos h.eps
  rw [sum_congr rfl fun i hi => h.bBases_eq (mem_range.1 hi) hx, show s.order = s.order - 1 + 1 by omega]
  exact sum_bsp_le_one (monotone_nat_of_le_succ fun i => by linarith [hg i]) (fun i => Or.inr (h.eps.trans (hg i))) x _ _

theorem Spline.Steady.insideOf {s : Spline} {W : ℝ} (h : s.Steady W) {x : ℝ} (hx : ¬ s.outside x) : s.Inside x where
  inside := hx
  near j hj := by
    obtain ⟨h1, h2⟩ := h.ends j hj
    unfold Spline.outside at hx
    push Not at hx
    rw [abs_le] at *
    constructor <;> linarith [hx.1, hx.2]
  unit := h.unit hx

theorem Spline.Steady.expo_lipschitz {s : Spline} {W : ℝ} (h : s.Steady W) {c : ℕ → ℝ} {A : ℝ} (hA : 0 ≤ A) (hc : ∀ i < s.N, |c i| ≤ A) {x y : ℝ} (hx : ¬ s.outside x) (hy : ¬ s.outside y) :
    |s.expo c y - s.expo c x| ≤ 2 * A / W * |y - x| := by
  have ho := h.order
  have := spline_lipschitz (extKnots_gap (by have := h.len; omega) h.steps) h.eps (s.order - 2) s.N c hA hc x y
  rw [show s.order - 2 + 2 = s.order by omega] at this
  unfold Spline.expo
  have e : ∀ {v : ℝ}, ¬ s.outside v → ∑ i ∈ range s.N, s.bBases i v * c i = ∑ i ∈ range s.N, bsp (extKnots s.knots.len s.knots.get W) v s.order i * c i :=
    fun hv => sum_congr rfl fun i hi => by rw [h.bBases_eq (mem_range.1 hi) hv]
  rwa [e hx, e hy]

/-! ### the rounded logarithm -/

/-- the point of the range nearest to `v` -/
def Spline.clampTo (s : Spline) (v : ℝ) : ℝ := max s.lo (min s.hi v)

theorem Spline.clampTo_eq {s : Spline} {v : ℝ} (h : ¬ s.outside v) : s.clampTo v = v := by
  unfold Spline.outside at h
  push Not at h
  unfold Spline.clampTo
  rw [min_eq_right h.2, max_eq_right h.1]

theorem Spline.clampTo_near {s : Spline} {y : ℝ} (h : ¬ s.outside y) (v : ℝ) : ¬ s.outside (s.clampTo v) ∧ |y - s.clampTo v| ≤ |y - v| := by
  unfold Spline.outside at h ⊢
  push Not at h ⊢
  obtain ⟨h1, h2⟩ := h
  unfold Spline.clampTo
  refine ⟨⟨le_max_left _ _, max_le (h1.trans h2) (min_le_left _ _)⟩, ?_⟩
  rcases le_total s.hi v with a | a
  · rw [min_eq_left a, max_eq_right (h1.trans h2), abs_of_nonpos (by linarith), abs_of_nonpos (by linarith)]; linarith
  · rw [min_eq_right a]
    rcases le_total s.lo v with b | b
    · rw [max_eq_right b]
    · rw [max_eq_left b, abs_of_nonneg (by linarith), abs_of_nonneg (by linarith)]; linarith

variable {f : Arith} {κ : ℝ}

/-- a positive number whose logarithm is at most `Λ` in size and whose computed logarithm is in the range of the spline -/
structure Spline.LogPoint (f : Arith) (s : Spline) (Λ x : ℝ) : Prop where
  low : flLo ≤ x
  high : x ≤ flHi
  lam : |Real.log x| ≤ Λ
  inside : ∃ y, f.log (fin x) = fin y ∧ ¬ s.outside y

/-- the exact exponent at `x`; a grid point whose exact logarithm is past the end of the range by a rounding error counts as the end -/
def Spline.logExpo (s : Spline) (c : ℕ → ℝ) (x : ℝ) : ℝ := s.expo c (s.clampTo (Real.log x))

theorem Arith.Contract.log_point (C : f.Contract κ) {s : Spline} {W A Λ : ℝ} (h : s.Steady W) {c : ℕ → ℝ} (hA : 0 ≤ A) (hc : ∀ i < s.N, |c i| ≤ A) {x : ℝ} (hx : s.LogPoint f Λ x) :
    ∃ y, f.log (fin x) = fin y ∧ s.Inside y ∧ |s.expo c y - s.logExpo c x| ≤ 2 * A / W * (1 + Λ) * κ := by
  have hκ := C.pos
  have hW0 : 0 < W := lt_of_lt_of_le knotEps_pos h.eps
  obtain ⟨y, ey, hy⟩ := hx.inside
  obtain ⟨y', ey', e⟩ := C.log_norm x hx.low hx.high
  rw [ey] at ey'
  obtain rfl : y = y' := by simpa using ey'
  obtain ⟨h1, h2⟩ := s.clampTo_near hy (Real.log x)
  refine ⟨y, ey, h.insideOf hy, (h.expo_lipschitz hA hc h1 hy).trans ?_⟩
  have h3 : |y - s.clampTo (Real.log x)| ≤ (1 + Λ) * κ := by
    refine h2.trans (e.trans ?_)
    have := mul_le_mul_of_nonneg_left hx.lam hκ.le
    linarith
  rw [mul_assoc]
  exact mul_le_mul_of_nonneg_left h3 (by positivity)

/-- **C149.** The exponential of a spline in `log x` before normalisation. -/
theorem C149_project (C : f.Contract κ) {s : Spline} {m D : ℕ} {o : RTree s.N} {c : ℕ → ℝ} {A W Λ : ℝ} (h : s.DensityOK m o D c A κ) (hs : s.Steady W) {x : ℝ} (hx : s.LogPoint f Λ x)
    (hA0 : 0 ≤ A) (hA : A ≤ 78) (hε : (10 * s.order + 5 + 2 * D) * κ * A + κ ≤ 1) :
    ∃ y, s.logXYProjectR f o (fun i => fin (c i)) x = fin y ∧
      Within ((10 * s.order + 5 + 2 * D) * κ * A + 2 * κ + 2 * A / W * (1 + Λ) * κ) (Real.exp (s.logExpo c x)) y := by
  obtain ⟨v, ev, hv, lv⟩ := C.log_point hs hA0 h.coefs hx
  obtain ⟨y, ey, wy⟩ := C144_project C h hv hA hε
  refine ⟨y, ?_, ?_⟩
  · rw [← ey]
    unfold Spline.logXYProjectR Spline.logYProjectR Spline.logXYBasesR
    simp only [ev]
  · have := (Within.of_abs_log lv).trans wy
    rwa [add_comm] at this

/-- the exact density of a spline in `log x`, normalised over its grid -/
def logSplineDensity (s : Spline) (n : ℕ) (grid c : ℕ → ℝ) (x : ℝ) : ℝ :=
  Real.exp (s.logExpo c x) * (1 / trapz (n + 1) (fun j => Real.exp (s.logExpo c (grid j))) grid)

theorem Spline.Steady.logExpo_le {s : Spline} {W A : ℝ} (h : s.Steady W) {m : ℕ} (hk : s.KnotsOK m) {c : ℕ → ℝ} (hA : 0 ≤ A) (hc : ∀ i < s.N, |c i| ≤ A) (hr : s.lo ≤ s.hi) (x : ℝ) : |s.logExpo c x| ≤ A := by
  have hin : ¬ s.outside (s.clampTo (Real.log x)) := by
    refine (s.clampTo_near (y := s.lo) ?_ _).1
    unfold Spline.outside; push Not; exact ⟨le_rfl, hr⟩
  unfold Spline.logExpo Spline.expo
  refine (abs_sum_le_sum_abs _ _).trans ?_
  have hb : ∀ i < s.N, 0 ≤ s.bBases i (s.clampTo (Real.log x)) := fun i hi => by
    unfold Spline.bBases; rw [if_neg hin]; exact s.bBase_nonneg hk hi _
  calc ∑ i ∈ range s.N, |s.bBases i (s.clampTo (Real.log x)) * c i| ≤ ∑ i ∈ range s.N, s.bBases i (s.clampTo (Real.log x)) * A := sum_le_sum fun i hi => by
        rw [abs_mul, abs_of_nonneg (hb i (mem_range.1 hi))]
        exact mul_le_mul_of_nonneg_left (hc i (mem_range.1 hi)) (hb i (mem_range.1 hi))
    _ = (∑ i ∈ range s.N, s.bBases i (s.clampTo (Real.log x))) * A := by rw [sum_mul]
    _ ≤ 1 * A := mul_le_mul_of_nonneg_right (h.unit hin) hA
    _ = A := one_mul A

/-- the error of the exponent of a spline in `log x` -/
def logSplineErr (s : Spline) (D : ℕ) (A W Λ κ : ℝ) : ℝ := (10 * s.order + 5 + 2 * D) * κ * A + 2 * A / W * (1 + Λ) * κ

theorem logSplineErr_nonneg {s : Spline} {D : ℕ} {A W Λ : ℝ} (hκ : 0 < κ) (hs : s.Steady W) (hA : 0 ≤ A) (hΛ : 0 ≤ Λ) :
    0 ≤ (10 * (s.order:ℝ) + 5 + 2 * D) * κ * A ∧ 0 ≤ 2 * A / W * (1 + Λ) * κ := by
  have hW0 : 0 < W := lt_of_lt_of_le knotEps_pos hs.eps
  constructor <;> positivity

/-- **C149.** The normalised `LogXLogYBSpline` in rounded arithmetic: at every positive `x` whose computed logarithm is in the range, the returned density is the exact one up to a factor whose
logarithm is at most twice the error of the exponent, `(10 k + 5 + 2 D) A κ` as for `LogYBSpline` plus `2 A (1 + Λ) κ / W` from the rounding of `log x` (`Λ` the largest logarithm, `W` the smallest
distance of knots, both in units of `log x`), plus `(16 + 2 D') κ`. -/
theorem C149_density (C : f.Contract κ) {s : Spline} {m D D' n : ℕ} {o : RTree s.N} {c : ℕ → ℝ} {A W Λ : ℝ} (h : s.DensityOK m o D c A κ) (hs : s.Steady W) (hr : s.lo ≤ s.hi) {og : RTree n}
    (hcov : og.Covers) (hdep : og.depth ≤ D') (hn : n ≤ 2 ^ 12) {grid : ℕ → ℝ} (hgrid : ∀ j < n, (2⁻¹:ℝ) ^ 18 ≤ grid (j + 1) - grid j ∧ grid (j + 1) - grid j ≤ 2 ^ 18)
    (hin : ∀ j ≤ n, s.LogPoint f Λ (grid j)) {x : ℝ} (hx : s.LogPoint f Λ x) (hA0 : 0 ≤ A) (hA : A ≤ 30) (hε : 2 * logSplineErr s D A W Λ κ + (16 + 2 * D') * κ ≤ 1) :
    ∃ p, s.logXYEvalR f o og grid (fun i => fin (c i)) x = fin p ∧ Within (2 * logSplineErr s D A W Λ κ + (16 + 2 * D') * κ) (logSplineDensity s n grid c x) p := by
  have hκ := C.pos
  have hD' : (0:ℝ) ≤ D' * κ := mul_nonneg (Nat.cast_nonneg _) hκ.le
  have hΛ : 0 ≤ Λ := (abs_nonneg _).trans hx.lam
  obtain ⟨hE0, hL0⟩ := logSplineErr_nonneg (D := D) hκ hs hA0 hΛ
  unfold logSplineErr at hε ⊢
  have key : ∀ {v : ℝ}, s.LogPoint f Λ v → ∃ y, s.logXYProjectR f o (fun i => fin (c i)) v = fin y ∧
      Rel ((10 * s.order + 5 + 2 * D) * κ * A + 2 * κ + 2 * A / W * (1 + Λ) * κ) (Real.exp (s.logExpo c v)) y := by
    intro v hv
    obtain ⟨y, ey, wy⟩ := C149_project C h hs hv hA0 (by linarith) (by linarith)
    exact ⟨y, ey, Rel.of_within (Real.exp_pos _) wy⟩
  have hb : ∀ v : ℝ, (2⁻¹:ℝ) ^ 44 ≤ Real.exp (s.logExpo c v) ∧ Real.exp (s.logExpo c v) ≤ 2 ^ 44 := fun v =>
    exp_bounds hA (hs.logExpo_le h.knots hA0 h.coefs hr v)
  obtain ⟨T, eT, rT, T1, T2⟩ := C.trapz_rel og hcov hdep hn (Y := fun j => Real.exp (s.logExpo c (grid j))) (by linarith) (fun j hj => key (hin j hj)) (fun j _ => hb (grid j)) hgrid (by linarith)
  have hT0 : 0 < trapz (n + 1) (fun j => Real.exp (s.logExpo c (grid j))) grid := lt_of_lt_of_le (by positivity) T1
  have tp := rT.pos hT0
  have hinv1 : (2⁻¹:ℝ) ^ 75 ≤ 1 / trapz (n + 1) (fun j => Real.exp (s.logExpo c (grid j))) grid := by
    rw [one_div, inv_pow]; exact inv_anti₀ hT0 T2
  have hinv2 : 1 / trapz (n + 1) (fun j => Real.exp (s.logExpo c (grid j))) grid ≤ 2 ^ 63 := by
    rw [one_div]
    refine (inv_anti₀ (by positivity) T1).trans (le_of_eq ?_)
    rw [inv_pow, inv_inv]
  obtain ⟨q, eq, rq⟩ := C.rel_round ((Rel.refl (x := 1)).div rT) (by linarith) (by refine le_trans ?_ hinv1; norm_num) (hinv2.trans (by norm_num))
  obtain ⟨u, eu, ru⟩ := key hx
  obtain ⟨b1, b2⟩ := hb x
  obtain ⟨p, ep, rp⟩ := C.rel_round (ru.mul rq) (by linarith)
    (by calc (2⁻¹:ℝ) ^ 122 ≤ 2⁻¹ ^ 44 * 2⁻¹ ^ 75 := by norm_num
          _ ≤ _ := mul_le_mul b1 hinv1 (by positivity) (le_trans (by positivity) b1))
    (by calc _ ≤ (2:ℝ) ^ 44 * 2 ^ 63 := mul_le_mul b2 hinv2 (le_trans (by positivity) hinv1) (by positivity)
          _ ≤ _ := by norm_num)
  refine ⟨p, ?_, Rel.within (mul_nonneg (Real.exp_pos _).le (le_trans (by positivity) hinv1)) (rp.mono (by linarith))⟩
  unfold Spline.logXYEvalR
  rw [eT, show (1 : F) = fin 1 from rfl, div_fin tp.ne', eq, eu, mul_fin, ep]

/-! ### the power law with a spline in redshift -/

/-- **C149.** The un-normalised spline in `log x` (`LogXBSpline` with `normalize=False`): absolute error. -/
theorem C149_exponent (C : f.Contract κ) {s : Spline} {m D : ℕ} {o : RTree s.N} {c : ℕ → ℝ} {A W Λ : ℝ} (h : s.DensityOK m o D c A κ) (hs : s.Steady W) {x : ℝ} (hx : s.LogPoint f Λ x)
    (hA0 : 0 ≤ A) (hA : A ≤ 78) (hε : (10 * s.order + 5 + 2 * D) * κ * A + κ ≤ 1) :
    ∃ e, s.logXProjectR f o (fun i => fin (c i)) x = fin e ∧ |e - s.logExpo c x| ≤ logSplineErr s D A W Λ κ + (3 + A) * κ ∧ |e| ≤ 80 := by
  have hκ := C.pos
  have hk : 1000 * κ ≤ 1 := by have := C.small; norm_num at this ⊢; linarith
  obtain ⟨v, ev, hv, lv⟩ := C.log_point hs hA0 h.coefs hx
  obtain ⟨e, ee, he, ha⟩ := C.expo h hv
  have e1 : einsumR f o (fun i => s.logXBasesR f i x) (fun i => fin (c i)) = fin e := by
    rw [← ee]
    unfold Spline.logXBasesR Spline.logYBasesR
    simp only [ev, if_neg hv.inside]
  have hb : |e| ≤ A + 1 := by
    have : e = (e - s.expo c v) + s.expo c v := by ring
    rw [this]
    exact (abs_add_le _ _).trans (by linarith)
  obtain ⟨y, ey, hy⟩ : ∃ y, f.r (fin e) = fin y ∧ |y - e| ≤ κ * |e| + κ := by
    rcases lt_or_ge |e| flLo with h0 | h0
    · obtain ⟨y, hy, hye⟩ := C.rd_sub e h0
      have h50 := C.tiny
      have : flLo ≤ κ := le_trans (by unfold flLo; norm_num) h50
      exact ⟨y, hy, by have := mul_nonneg hκ.le (abs_nonneg e); linarith⟩
    · obtain ⟨y, hy, hye⟩ := C.rd_norm e h0 (hb.trans (le_trans (show A + 1 ≤ 79 by linarith) (by unfold flHi; norm_num)))
      exact ⟨y, hy, by linarith⟩
  have hke := mul_le_mul_of_nonneg_left hb hκ.le
  have hκA := mul_le_mul_of_nonneg_left hA hκ.le
  refine ⟨y, ?_, ?_, ?_⟩
  · unfold Spline.logXProjectR
    rw [e1, show (1:F) = fin 1 from rfl, mul_fin, mul_one, ey]
  · have : y - s.logExpo c x = (y - e) + (e - s.expo c v) + (s.expo c v - s.logExpo c x) := by ring
    rw [this]
    refine (abs_add_le _ _).trans ((add_le_add (abs_add_le _ _) le_rfl).trans ?_)
    unfold logSplineErr
    linarith
  · have : y = (y - e) + e := by ring
    rw [this]
    exact (abs_add_le _ _).trans (by linarith)

/-- the unnormalised density of the redshift: volume element, power law and exponential of the spline -/
def splineRedshiftWeight (s : Spline) (c : ℕ → ℝ) (lamb z V : ℝ) : ℝ := V * (1 + z) ^ (lamb - 1) * Real.exp (s.logExpo c z)

/-- error of the unnormalised density -/
def splineRedshiftErr (s : Spline) (D : ℕ) (A W Λ lamb κ : ℝ) : ℝ := κ * (5 * |lamb - 1| + 3) + (logSplineErr s D A W Λ κ + (6 + A) * κ)

theorem C149_redshift_prob (C : f.Contract κ) {pw : F → F → F} (P : PowContract pw κ) {s : Spline} {m D : ℕ} {o : RTree s.N} {c : ℕ → ℝ} {A W Λ : ℝ} (h : s.DensityOK m o D c A κ) (hs : s.Steady W)
    {z V lamb : ℝ} (hz : s.LogPoint f Λ z) (r : RedshiftOK z V (lamb - 1)) (hA0 : 0 ≤ A) (hA : A ≤ 30)
    (hsz : (2⁻¹:ℝ) ^ 44 ≤ splineRedshiftWeight s c lamb z V ∧ splineRedshiftWeight s c lamb z V ≤ 2 ^ 44) (hε : splineRedshiftErr s D A W Λ lamb κ ≤ 1) :
    ∃ p, splineRedshiftProbR f pw s o (fun i => fin (c i)) z (fin V) (fin lamb) = fin p ∧ Rel (splineRedshiftErr s D A W Λ lamb κ) (splineRedshiftWeight s c lamb z V) p := by
  have hκ := C.pos
  have hΛ : 0 ≤ Λ := (abs_nonneg _).trans hz.lam
  obtain ⟨hE0, hL0⟩ := logSplineErr_nonneg (D := D) hκ hs hA0 hΛ
  have hls : 0 ≤ κ * (5 * |lamb - 1| + 3) := by positivity
  have hAκ : 0 ≤ A * κ := by positivity
  unfold splineRedshiftErr at hε ⊢
  have hlE : logSplineErr s D A W Λ κ = (10 * s.order + 5 + 2 * D) * κ * A + 2 * A / W * (1 + Λ) * κ := rfl
  have hL0' : 0 ≤ logSplineErr s D A W Λ κ := by rw [hlE]; linarith
  obtain ⟨p, ep, rp⟩ := C147_redshift_prob C P r (by linarith)
  obtain ⟨e, ee, he, hb⟩ := C149_exponent C h hs hz hA0 (by linarith) (by rw [hlE] at hε; linarith)
  obtain ⟨y, ey, wy⟩ := C.exp_norm e hb
  have re := (Rel.of_within (Real.exp_pos _) (Within.of_abs_log he)).trans (Rel.of_within (Real.exp_pos _) wy)
  obtain ⟨q, eq, rq⟩ := C.rel_round (rp.mul re) (by linarith) (by refine le_trans ?_ hsz.1; norm_num) (hsz.2.trans (by norm_num))
  refine ⟨q, ?_, rq.mono (by linarith)⟩
  unfold splineRedshiftProbR
  rw [ep, ee, ey, mul_fin, eq]

/-- **C149.** The normalised density of `PowerlawSplineRedshiftModel` in rounded arithmetic, for redshifts and grid points whose computed logarithm is in the range of the spline. -/
theorem C149_redshift (C : f.Contract κ) {pw : F → F → F} (P : PowContract pw κ) {s : Spline} {m D : ℕ} {o : RTree s.N} {c : ℕ → ℝ} {A W Λ : ℝ} (h : s.DensityOK m o D c A κ) (hs : s.Steady W)
    {n D' : ℕ} {og : RTree n} (hcov : og.Covers) (hdep : og.depth ≤ D') (hn : n ≤ 2 ^ 12) {zs V_ : ℕ → ℝ} {zmax z V lamb : ℝ}
    (hgz : ∀ j ≤ n, s.LogPoint f Λ (zs j)) (hgr : ∀ j ≤ n, RedshiftOK (zs j) (V_ j) (lamb - 1))
    (hgs : ∀ j ≤ n, (2⁻¹:ℝ) ^ 44 ≤ splineRedshiftWeight s c lamb (zs j) (V_ j) ∧ splineRedshiftWeight s c lamb (zs j) (V_ j) ≤ 2 ^ 44)
    (hst : ∀ j < n, (2⁻¹:ℝ) ^ 18 ≤ zs (j + 1) - zs j ∧ zs (j + 1) - zs j ≤ 2 ^ 18)
    (hz : s.LogPoint f Λ z) (r : RedshiftOK z V (lamb - 1)) (hsz : (2⁻¹:ℝ) ^ 44 ≤ splineRedshiftWeight s c lamb z V ∧ splineRedshiftWeight s c lamb z V ≤ 2 ^ 44) (hzm : z ≤ zmax)
    (hA0 : 0 ≤ A) (hA : A ≤ 30) (hε : 2 * splineRedshiftErr s D A W Λ lamb κ + (10 + 2 * D') * κ ≤ 1) :
    ∃ p, splineRedshiftCallR f pw s o (fun i => fin (c i)) og zs (fun j => fin (V_ j)) zmax z (fin V) (fin lamb) = fin p ∧
      Within (2 * splineRedshiftErr s D A W Λ lamb κ + (10 + 2 * D') * κ)
        (splineRedshiftWeight s c lamb z V / trapz (n + 1) (fun j => splineRedshiftWeight s c lamb (zs j) (V_ j)) zs) p := by
  have hκ := C.pos
  have hD' : (0:ℝ) ≤ D' * κ := mul_nonneg (Nat.cast_nonneg _) hκ.le
  have hΛ : 0 ≤ Λ := (abs_nonneg _).trans hz.lam
  obtain ⟨hE0, hL0⟩ := logSplineErr_nonneg (D := D) hκ hs hA0 hΛ
  have he0 : 0 ≤ splineRedshiftErr s D A W Λ lamb κ := by
    unfold splineRedshiftErr logSplineErr
    have : 0 ≤ κ * (5 * |lamb - 1| + 3) := by positivity
    have : 0 ≤ (6 + A) * κ := by positivity
    linarith
  obtain ⟨a, ea, ra⟩ := C149_redshift_prob C P h hs hz r hA0 hA hsz (by linarith)
  obtain ⟨T, eT, rT, t0, t1⟩ := C.trapz_rel og hcov hdep hn he0 (y := fun j => splineRedshiftProbR f pw s o (fun i => fin (c i)) (zs j) (fin (V_ j)) (fin lamb))
    (Y := fun j => splineRedshiftWeight s c lamb (zs j) (V_ j)) (grid := zs)
    (fun j hj => C149_redshift_prob C P h hs (hgz j hj) (hgr j hj) hA0 hA (hgs j hj) (by linarith)) hgs hst (by linarith)
  have tp : 0 < trapz (n + 1) (fun j => splineRedshiftWeight s c lamb (zs j) (V_ j)) zs := lt_of_lt_of_le (by positivity) t0
  have ap : 0 < splineRedshiftWeight s c lamb z V := lt_of_lt_of_le (by positivity) hsz.1
  have Tp := rT.pos tp
  obtain ⟨p, ep, rp⟩ := C.rel_round (ra.div rT) (by linarith) (by
      rw [le_div_iff₀ tp]
      exact le_trans (mul_le_mul_of_nonneg_left t1 (by positivity)) (le_trans (by norm_num) hsz.1)) (by
      rw [div_le_iff₀ tp]
      exact hsz.2.trans (le_trans (by norm_num) (mul_le_mul_of_nonneg_left t0 (by positivity))))
  refine ⟨p, ?_, (rp.within (div_pos ap tp).le).mono (by linarith) (div_pos ap tp).le⟩
  unfold splineRedshiftCallR splineRedshiftNormR
  rw [if_pos (show le (fin z) (fin zmax) from hzm), ea, eT, div_fin Tp.ne']
  exact ep

end GW
end
