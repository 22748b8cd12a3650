import Verif.Lemmas.BSpline
import Mathlib.Analysis.Calculus.ContDiff.Operations
import Mathlib.Analysis.Calculus.ContDiff.Deriv
import Mathlib.Analysis.Calculus.Deriv.Mul
import Mathlib.Analysis.Calculus.IteratedDeriv.Defs
import Mathlib.MeasureTheory.Integral.IntervalIntegral.FundThmCalculus

/-! Smoothness of the Cox–de Boor functions on simple knots. -/

open Finset Set Filter Topology
noncomputable section
open Classical
namespace GW

variable {t : ℕ → ℝ}

/-- consecutive knots `t i, …, t (i+k)` are at least the threshold apart -/
def SimpleKnots (t : ℕ → ℝ) (i k : ℕ) : Prop := ∀ j, i ≤ j → j < i + k → knotEps ≤ t (j + 1) - t j

theorem SimpleKnots.left {i k : ℕ} (h : SimpleKnots t i (k + 1)) : SimpleKnots t i k := fun j h1 h2 => h j h1 (by omega)
theorem SimpleKnots.right {i k : ℕ} (h : SimpleKnots t i (k + 1)) : SimpleKnots t (i + 1) k := fun j h1 h2 => h j (by omega) (by omega)

theorem SimpleKnots.gap {i k : ℕ} (h : SimpleKnots t i k) : ∀ m, 1 ≤ m → m ≤ k → knotEps ≤ t (i + m) - t i := by
  intro m hm
  induction m, hm using Nat.le_induction with
  | base => exact fun hk => h i le_rfl (by omega)
  | succ m hm ih =>
    intro hk
    have h1 := ih (by omega)
    have h2 := h (i + m) (by omega) (by omega)
    have := knotEps_pos
    rw [show i + (m + 1) = i + m + 1 by ring]
    linarith

theorem basis_step {k i : ℕ} (h : SimpleKnots t i (k + 2)) (x : ℝ) : basis t x (k + 2) i =
    ((x - t i) * basis t x (k + 1) i + (t (i + (k + 2)) - x) * basis t x (k + 1) (i + 1)) * ((k : ℝ) + 2)
      / (((k : ℝ) + 1) * (t (i + (k + 2)) - t i)) := by
  rw [basis_add_two, if_neg (not_lt.2 (h.gap (k + 2) (by omega) le_rfl))]

/-- order one is constant to the right of every point -/
theorem basis_one_right (t : ℕ → ℝ) (i : ℕ) (x : ℝ) : HasDerivWithinAt (fun y => basis t y 1 i) 0 (Ici x) x := by
  have : (fun y => basis t y 1 i) =ᶠ[𝓝[Ici x] x] fun _ => basis t x 1 i := by
    simp only [basis_one]
    by_cases hd : t (i + 1) - t i < knotEps
    · simp [hd]
    · simp only [hd, if_false]
      rcases lt_or_ge x (t i) with h | h
      · have : ∀ᶠ y in 𝓝[Ici x] x, y < t i := nhdsWithin_le_nhds (Iio_mem_nhds h)
        filter_upwards [this] with y hy
        rw [if_neg (fun a => absurd a.1 (not_le.2 hy)), if_neg (fun a => absurd a.1 (not_le.2 h))]
      · rcases lt_or_ge x (t (i + 1)) with h' | h'
        · have : ∀ᶠ y in 𝓝[Ici x] x, y < t (i + 1) := nhdsWithin_le_nhds (Iio_mem_nhds h')
          filter_upwards [this, self_mem_nhdsWithin] with y hy hy2
          rw [if_pos ⟨h.trans hy2, hy⟩, if_pos ⟨h, h'⟩]
        · filter_upwards [self_mem_nhdsWithin] with y hy
          rw [if_neg (fun a => absurd a.2 (not_lt.2 (h'.trans hy))), if_neg (fun a => absurd a.2 (not_lt.2 h'))]
  exact (hasDerivWithinAt_const x _ _).congr_of_eventuallyEq this rfl

/-- the right derivative of a component is the difference of two components of the order below -/
theorem basis_right_deriv (k : ℕ) : ∀ i, SimpleKnots t i (k + 2) → ∀ x,
    HasDerivWithinAt (fun y => basis t y (k + 2) i)
      (((k : ℝ) + 2) * (basis t x (k + 1) i - basis t x (k + 1) (i + 1)) / (t (i + (k + 2)) - t i)) (Ici x) x := by
  induction k with
  | zero =>
    intro i h x
    have hg := h.gap 2 (by norm_num) le_rfl
    have hne : t (i + 2) - t i ≠ 0 := by have := knotEps_pos; intro h0; rw [h0] at hg; linarith
    have d0 := basis_one_right t i x
    have d1 := basis_one_right t (i + 1) x
    have id1 : HasDerivWithinAt (fun y : ℝ => y - t i) 1 (Ici x) x := ((hasDerivAt_id x).sub_const _).hasDerivWithinAt
    have id2 : HasDerivWithinAt (fun y : ℝ => t (i + 2) - y) (-1) (Ici x) x := by
      simpa using ((hasDerivAt_id x).const_sub (t (i + 2))).hasDerivWithinAt
    have := (((id1.mul d0).add (id2.mul d1)).mul_const (((0 : ℕ) : ℝ) + 2)).div_const ((((0 : ℕ) : ℝ) + 1) * (t (i + (0 + 2)) - t i))
    refine (this.congr_deriv ?_).congr (fun y _ => basis_step h y) (basis_step h x)
    simp only [Nat.cast_zero, zero_add]
    field_simp
    ring
  | succ k ih =>
    intro i h x
    have h1 := h.left
    have h2 := h.right
    have hg := h.gap (k + 3) (by omega) le_rfl
    have hg1 := h1.gap (k + 2) (by omega) le_rfl
    have hg2 := h2.gap (k + 2) (by omega) le_rfl
    have e := knotEps_pos
    have hne : t (i + (k + 3)) - t i ≠ 0 := by intro h0; rw [h0] at hg; linarith
    have hne1 : t (i + (k + 2)) - t i ≠ 0 := by intro h0; rw [h0] at hg1; linarith
    have hne2 : t (i + 1 + (k + 2)) - t (i + 1) ≠ 0 := by intro h0; rw [h0] at hg2; linarith
    have d0 := ih i h1 x
    have d1 := ih (i + 1) h2 x
    have id1 : HasDerivWithinAt (fun y : ℝ => y - t i) 1 (Ici x) x := ((hasDerivAt_id x).sub_const _).hasDerivWithinAt
    have id2 : HasDerivWithinAt (fun y : ℝ => t (i + (k + 1 + 2)) - y) (-1) (Ici x) x := by
      simpa using ((hasDerivAt_id x).const_sub (t (i + (k + 1 + 2)))).hasDerivWithinAt
    have := (((id1.mul d0).add (id2.mul d1)).mul_const (((k + 1 : ℕ) : ℝ) + 2)).div_const
      ((((k + 1 : ℕ) : ℝ) + 1) * (t (i + (k + 1 + 2)) - t i))
    refine (this.congr_deriv ?_).congr (fun y _ => basis_step (k := k + 1) h y) (basis_step (k := k + 1) h x)
    have s0 := basis_step h1 x
    have s1 := basis_step h2 x
    have r0 : ((k : ℝ) + 1) * basis t x (k + 1 + 1) i * (t (i + (k + 2)) - t i) =
        ((k : ℝ) + 2) * ((x - t i) * basis t x (k + 1) i + (t (i + (k + 2)) - x) * basis t x (k + 1) (i + 1)) := by
      rw [show k + 1 + 1 = k + 2 by ring, s0]; field_simp
    have r1 : ((k : ℝ) + 1) * basis t x (k + 1 + 1) (i + 1) * (t (i + 1 + (k + 2)) - t (i + 1)) =
        ((k : ℝ) + 2) * ((x - t (i + 1)) * basis t x (k + 1) (i + 1) + (t (i + 1 + (k + 2)) - x) * basis t x (k + 1) (i + 1 + 1)) := by
      rw [show k + 1 + 1 = k + 2 by ring, s1]; field_simp
    have hk : i + 1 + (k + 2) = i + (k + 1 + 2) := by ring
    rw [hk] at r1 hne2 ⊢
    have key : (x - t i) * (((k : ℝ) + 2) * (basis t x (k + 1) i - basis t x (k + 1) (i + 1)) / (t (i + (k + 2)) - t i)) +
        (t (i + (k + 1 + 2)) - x) * (((k : ℝ) + 2) * (basis t x (k + 1) (i + 1) - basis t x (k + 1) (i + 1 + 1)) /
          (t (i + (k + 1 + 2)) - t (i + 1))) =
        ((k : ℝ) + 1) * (basis t x (k + 1 + 1) i - basis t x (k + 1 + 1) (i + 1)) := by
      have q0 : (x - t i) * (((k : ℝ) + 2) * (basis t x (k + 1) i - basis t x (k + 1) (i + 1)) / (t (i + (k + 2)) - t i)) =
          ((k : ℝ) + 1) * basis t x (k + 1 + 1) i - ((k : ℝ) + 2) * basis t x (k + 1) (i + 1) := by
        rw [← mul_div_assoc, div_eq_iff hne1]; linear_combination -r0
      have q1 : (t (i + (k + 1 + 2)) - x) * (((k : ℝ) + 2) * (basis t x (k + 1) (i + 1) - basis t x (k + 1) (i + 1 + 1)) /
          (t (i + (k + 1 + 2)) - t (i + 1))) =
          -(((k : ℝ) + 1) * basis t x (k + 1 + 1) (i + 1)) + ((k : ℝ) + 2) * basis t x (k + 1) (i + 1) := by
        rw [← mul_div_assoc, div_eq_iff hne2]; linear_combination r1
      rw [q0, q1]; ring
    have hne' : t (i + (k + 1 + 2)) - t i ≠ 0 := hne
    rw [div_eq_div_iff (mul_ne_zero (by positivity) hne') hne']
    push_cast
    linear_combination (((k : ℝ) + 1 + 2) * (t (i + (k + 1 + 2)) - t i)) * key

/-- a function with a right derivative everywhere is differentiable as soon as it and the right derivative are continuous -/
theorem hasDerivAt_of_right {f f' : ℝ → ℝ} (hf : Continuous f) (hf' : Continuous f')
    (h : ∀ x, HasDerivWithinAt f (f' x) (Ici x) x) (x : ℝ) : HasDerivAt f (f' x) x := by
  have hi : ∀ y, x - 1 ≤ y → f y = f (x - 1) + ∫ u in (x - 1)..y, f' u := by
    intro y hy
    have := intervalIntegral.integral_eq_sub_of_hasDeriv_right_of_le hy hf.continuousOn
      (fun u _ => (h u).mono Ioi_subset_Ici_self) (hf'.intervalIntegrable _ _)
    rw [this]; ring
  have hd : HasDerivAt (fun y => f (x - 1) + ∫ u in (x - 1)..y, f' u) (f' x) x := by
    simpa using (hf'.integral_hasStrictDerivAt (x - 1) x).hasDerivAt.const_add (f (x - 1))
  refine hd.congr_of_eventuallyEq ?_
  filter_upwards [Ioi_mem_nhds (show x - 1 < x by linarith)] with y hy
  exact hi y (le_of_lt hy)

/-- order two: the hat function -/
theorem basis_two {i : ℕ} (h : SimpleKnots t i 2) (x : ℝ) : basis t x 2 i =
    2 / (t (i + 2) - t i) * max 0 (min ((x - t i) / (t (i + 1) - t i)) ((t (i + 2) - x) / (t (i + 2) - t (i + 1)))) := by
  have e := knotEps_pos
  have g0 : knotEps ≤ t (i + 1) - t i := h i le_rfl (by omega)
  have g1 : knotEps ≤ t (i + 2) - t (i + 1) := h (i + 1) (by omega) (by omega)
  have p0 : 0 < t (i + 1) - t i := by linarith
  have p1 : 0 < t (i + 2) - t (i + 1) := by linarith
  have p2 : 0 < t (i + 2) - t i := by linarith
  rw [basis_step (k := 0) h x, basis_one, basis_one, if_neg (not_lt.2 g0), if_neg (not_lt.2 g1)]
  simp only [Nat.cast_zero, zero_add, one_mul, show i + 1 + 1 = i + 2 by ring]
  rcases lt_or_ge x (t i) with h0 | h0
  · have : (x - t i) / (t (i + 1) - t i) ≤ 0 := div_nonpos_of_nonpos_of_nonneg (by linarith) p0.le
    rw [if_neg (fun a => absurd a.1 (not_le.2 h0)), if_neg (fun a => absurd a.1 (not_le.2 (by linarith))),
      max_eq_left ((min_le_left _ _).trans this)]
    simp
  · rcases lt_or_ge x (t (i + 1)) with h1 | h1
    · have a0 : 0 ≤ (x - t i) / (t (i + 1) - t i) := div_nonneg (by linarith) p0.le
      have a1 : (x - t i) / (t (i + 1) - t i) ≤ 1 := by rw [div_le_one p0]; linarith
      have a2 : 1 ≤ (t (i + 2) - x) / (t (i + 2) - t (i + 1)) := by rw [le_div_iff₀ p1]; linarith
      rw [if_pos ⟨h0, h1⟩, if_neg (fun a => absurd a.1 (not_le.2 h1)), min_eq_left (a1.trans a2), max_eq_right a0]
      field_simp
      ring
    · rw [if_neg (fun a => absurd a.2 (not_lt.2 h1))]
      have a0 : 1 ≤ (x - t i) / (t (i + 1) - t i) := by rw [le_div_iff₀ p0]; linarith
      rcases lt_or_ge x (t (i + 2)) with h2 | h2
      · have a1 : (t (i + 2) - x) / (t (i + 2) - t (i + 1)) ≤ 1 := by rw [div_le_one p1]; linarith
        have a2 : 0 ≤ (t (i + 2) - x) / (t (i + 2) - t (i + 1)) := div_nonneg (by linarith) p1.le
        rw [if_pos ⟨h1, h2⟩, min_eq_right (a1.trans a0), max_eq_right a2]
        field_simp
        ring
      · have a2 : (t (i + 2) - x) / (t (i + 2) - t (i + 1)) ≤ 0 := div_nonpos_of_nonpos_of_nonneg (by linarith) p1.le
        rw [if_neg (fun a => absurd a.2 (not_lt.2 h2)), max_eq_left ((min_le_right _ _).trans a2)]
        simp

theorem basis_continuous (k : ℕ) : ∀ i, SimpleKnots t i (k + 2) → Continuous fun x => basis t x (k + 2) i := by
  induction k with
  | zero =>
    intro i h
    have : (fun x => basis t x 2 i) = fun x => 2 / (t (i + 2) - t i) * max 0 (min ((x - t i) / (t (i + 1) - t i))
      ((t (i + 2) - x) / (t (i + 2) - t (i + 1)))) := funext fun x => basis_two h x
    change Continuous fun x => basis t x 2 i
    rw [this]
    fun_prop
  | succ k ih =>
    intro i h
    have c0 := ih i h.left
    have c1 := ih (i + 1) h.right
    have : (fun x => basis t x (k + 1 + 2) i) = _ := funext fun x => basis_step (k := k + 1) h x
    rw [this]
    fun_prop

/-- order three and more: differentiable everywhere -/
theorem basis_hasDerivAt (k i : ℕ) (h : SimpleKnots t i (k + 3)) (x : ℝ) :
    HasDerivAt (fun y => basis t y (k + 3) i)
      (((k : ℝ) + 3) * (basis t x (k + 2) i - basis t x (k + 2) (i + 1)) / (t (i + (k + 3)) - t i)) x := by
  have c0 := basis_continuous k i h.left
  have c1 := basis_continuous k (i + 1) h.right
  have := hasDerivAt_of_right (basis_continuous (k + 1) i h) (f' := fun x =>
    (((k : ℝ) + 3) * (basis t x (k + 2) i - basis t x (k + 2) (i + 1)) / (t (i + (k + 3)) - t i))) (by fun_prop)
    (fun y => by
      have := basis_right_deriv (k + 1) i h y
      push_cast at this
      rw [show (k : ℝ) + 1 + 2 = k + 3 by ring] at this
      exact this) x
  exact this

/-- order `k + 2` on simple knots is `k` times continuously differentiable -/
theorem basis_contDiff (k : ℕ) : ∀ i, SimpleKnots t i (k + 2) → ContDiff ℝ k fun x => basis t x (k + 2) i := by
  induction k with
  | zero => intro i h; exact contDiff_zero.2 (basis_continuous 0 i h)
  | succ k ih =>
    intro i h
    have hd := basis_hasDerivAt k i h
    rw [show ((k + 1 : ℕ) : WithTop ℕ∞) = (k : WithTop ℕ∞) + 1 by push_cast; rfl, contDiff_succ_iff_deriv]
    refine ⟨fun x => (hd x).differentiableAt, fun hω => absurd hω (by simp), ?_⟩
    rw [show deriv (fun x => basis t x (k + 1 + 2) i) = _ from funext fun x => (hd x).deriv]
    exact (contDiff_const.mul ((ih i h.left).sub (ih (i + 1) h.right))).div_const _

end GW
end
