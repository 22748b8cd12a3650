import Verif.Lemmas.Glue
import Mathlib.MeasureTheory.Integral.IntervalIntegral.Basic
import Mathlib.Analysis.SpecialFunctions.Exp

/-! The trapezoid rule against the true integral, for functions that vary little over half a cell. -/

open Finset Set
noncomputable section
open Classical
namespace GW

/-- on an interval: constant bounds on the function bound its integral -/
theorem integral_bounds {f : ℝ → ℝ} {u v m M : ℝ} (huv : u ≤ v) (hf : ContinuousOn f (Icc u v))
    (h : ∀ x ∈ Icc u v, m ≤ f x ∧ f x ≤ M) : m * (v - u) ≤ ∫ x in u..v, f x ∧ ∫ x in u..v, f x ≤ M * (v - u) := by
  have hi : IntervalIntegrable f MeasureTheory.volume u v := hf.intervalIntegrable_of_Icc huv
  constructor
  · have := intervalIntegral.integral_mono_on huv intervalIntegrable_const hi (fun x hx => (h x hx).1)
    simpa [mul_comm] using this
  · have := intervalIntegral.integral_mono_on huv hi intervalIntegrable_const (fun x hx => (h x hx).2)
    simpa [mul_comm] using this

/-- If over each half cell `f` stays between `lo * (value at the near grid point) - d` and
`hi * (value at the near grid point) + d`, the integral and the trapezoid sum differ by no more than that. -/
theorem trapz_halfcell {f : ℝ → ℝ} {a b lo hi d : ℝ} {n : ℕ} (hn : 2 ≤ n) (hab : a < b)
    (hf : ContinuousOn f (Icc a b))
    (h : ∀ x ∈ Icc a b, ∀ y ∈ Icc a b, |x - y| ≤ (b - a) / ((n : ℝ) - 1) / 2 → lo * f y - d ≤ f x ∧ f x ≤ hi * f y + d) :
    lo * trapz n (fun j => f ((linspace a b n).get j)) (linspace a b n).get - d * (b - a) ≤ ∫ x in a..b, f x ∧
    ∫ x in a..b, f x ≤ hi * trapz n (fun j => f ((linspace a b n).get j)) (linspace a b n).get + d * (b - a) := by
  have hn1 : (1 : ℝ) ≤ (n : ℝ) - 1 := by have : (2 : ℝ) ≤ n := by exact_mod_cast hn
                                         linarith
  set w := (b - a) / ((n : ℝ) - 1) with hw
  have hwpos : 0 < w := div_pos (by linarith) (by linarith)
  have hwn : w * ((n : ℝ) - 1) = b - a := by rw [hw]; field_simp
  set X : ℕ → ℝ := fun j => a + j * w with hX
  have hget : (linspace a b n).get = X := rfl
  have hX0 : X 0 = a := by simp [hX]
  have hXn : X (n - 1) = b := by
    simp only [hX]; rw [Nat.cast_sub (by omega)]; push_cast; linarith
  have hXs : ∀ j, X (j + 1) = X j + w := by intro j; simp only [hX]; push_cast; ring
  have hmem : ∀ j, j ≤ n - 1 → X j ∈ Icc a b := by
    intro j hj
    have : (j : ℝ) ≤ (n : ℝ) - 1 := by
      have : (j : ℝ) ≤ ((n - 1 : ℕ) : ℝ) := by exact_mod_cast hj
      rwa [Nat.cast_sub (by omega), Nat.cast_one] at this
    refine ⟨by simp only [hX]; have : (0:ℝ) ≤ j * w := by positivity
               linarith, ?_⟩
    simp only [hX]; nlinarith
  have hii : ∀ u v, u ∈ Icc a b → v ∈ Icc a b → IntervalIntegrable f MeasureTheory.volume u v := by
    intro u v hu hv
    refine ContinuousOn.intervalIntegrable (hf.mono ?_)
    exact Set.ordConnected_Icc.uIcc_subset hu hv
  have hsum : ∫ x in a..b, f x = ∑ j ∈ range (n - 1), ∫ x in X j..X (j + 1), f x := by
    rw [intervalIntegral.sum_integral_adjacent_intervals (fun j hj => hii _ _ (hmem j (by omega)) (hmem (j + 1) (by omega))),
      hX0, hXn]
  have hcell : ∀ j ∈ range (n - 1), lo * (w * (f (X (j + 1)) + f (X j)) * 0.5) - d * w ≤ ∫ x in X j..X (j + 1), f x ∧
      ∫ x in X j..X (j + 1), f x ≤ hi * (w * (f (X (j + 1)) + f (X j)) * 0.5) + d * w := by
    intro j hj
    have hj' := mem_range.1 hj
    have m0 := hmem j (by omega)
    have m1 := hmem (j + 1) (by omega)
    have mm : X j + w / 2 ∈ Icc a b := by
      rw [hXs] at m1
      exact ⟨by linarith [m0.1], by linarith [m1.2]⟩
    rw [← intervalIntegral.integral_add_adjacent_intervals (hii _ _ m0 mm) (hii _ _ mm m1)]
    have b0 := integral_bounds (f := f) (u := X j) (v := X j + w / 2) (m := lo * f (X j) - d) (M := hi * f (X j) + d)
      (by linarith) (hf.mono (Icc_subset_Icc m0.1 mm.2)) (fun x hx => h x ⟨m0.1.trans hx.1, hx.2.trans mm.2⟩ _ m0 (by
        rw [abs_of_nonneg (by linarith [hx.1])]; linarith [hx.2]))
    have b1 := integral_bounds (f := f) (u := X j + w / 2) (v := X (j + 1)) (m := lo * f (X (j + 1)) - d)
      (M := hi * f (X (j + 1)) + d)
      (by rw [hXs]; linarith) (hf.mono (Icc_subset_Icc mm.1 m1.2)) (fun x hx => h x ⟨mm.1.trans hx.1, hx.2.trans m1.2⟩ _ m1 (by
        have := hx.1
        have h2 := hx.2
        rw [hXs] at h2 ⊢
        rw [abs_of_nonpos (by linarith)]; linarith))
    have e : X (j + 1) - (X j + w / 2) = w / 2 := by rw [hXs]; ring
    rw [e] at b1
    rw [show X j + w / 2 - X j = w / 2 by ring] at b0
    constructor
    · nlinarith [b0.1, b1.1]
    · nlinarith [b0.2, b1.2]
  have hT : trapz n (fun j => f ((linspace a b n).get j)) (linspace a b n).get =
      ∑ j ∈ range (n - 1), w * (f (X (j + 1)) + f (X j)) * 0.5 := by
    rw [trapz, mul_sum]
    refine sum_congr rfl fun j _ => ?_
    rw [hget, hXs]; ring
  have hd : d * (b - a) = ∑ _j ∈ range (n - 1), d * w := by
    rw [sum_const, card_range, nsmul_eq_mul, Nat.cast_sub (by omega)]; push_cast; linear_combination -d * hwn
  rw [hsum, hT, hd, mul_sum, mul_sum, ← sum_sub_distrib, ← sum_add_distrib]
  exact ⟨sum_le_sum fun j hj => (hcell j hj).1, sum_le_sum fun j hj => (hcell j hj).2⟩

end GW
end
