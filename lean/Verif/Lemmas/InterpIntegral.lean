import Verif.Lemmas.Interp
import Mathlib.MeasureTheory.Integral.IntervalIntegral.FundThmCalculus
import Mathlib.Analysis.SpecialFunctions.Integrals.Basic

/-! # The integral of the modelled `interp` is the trapezoid sum of its table -/

open Finset MeasureTheory
noncomputable section

theorem interp_cell_integral {n : ℕ} {xp fp : ℕ → ℝ} (hx : IncOn n xp) {i : ℕ} (hi : i + 1 < n) :
    IntervalIntegrable (interp n xp fp) volume (xp i) (xp (i + 1)) ∧
    ∫ x in (xp i)..(xp (i + 1)), interp n xp fp x = (xp (i + 1) - xp i) * (fp (i + 1) + fp i) / 2 := by
  have hlt := hx i hi
  set f : ℝ → ℝ := fun x => fp i + ((x - xp i) / (xp (i + 1) - xp i)) * (fp (i + 1) - fp i) with hf
  have hcongr : Set.EqOn (interp n xp fp) f (Set.uIcc (xp i) (xp (i + 1))) := by
    intro x hx'
    rw [Set.uIcc_of_le hlt.le] at hx'
    exact interp_cell hx hi hx'.1 hx'.2
  have hcont : Continuous f := by rw [hf]; fun_prop
  constructor
  · exact (hcont.intervalIntegrable _ _).congr (fun x hx' => (hcongr (Set.uIoc_subset_uIcc hx')).symm)
  · rw [intervalIntegral.integral_congr hcongr]
    have hne : xp (i + 1) - xp i ≠ 0 := by linarith
    have e : ∀ x, f x = (fp i - xp i / (xp (i + 1) - xp i) * (fp (i + 1) - fp i))
        + (fp (i + 1) - fp i) / (xp (i + 1) - xp i) * x := fun x => by rw [hf]; field_simp; ring
    simp only [e]
    rw [intervalIntegral.integral_add (by simp) (by apply Continuous.intervalIntegrable; fun_prop),
      intervalIntegral.integral_const_mul, intervalIntegral.integral_const, integral_id, smul_eq_mul]
    field_simp; ring

theorem interp_integral {n : ℕ} {xp fp : ℕ → ℝ} (hx : IncOn n xp) :
    ∫ x in (xp 0)..(xp (n - 1)), interp n xp fp x = trapz n fp xp := by
  have h := intervalIntegral.sum_integral_adjacent_intervals (a := xp) (n := n - 1) (f := interp n xp fp) (μ := volume)
    (fun i hi => (interp_cell_integral hx (by omega)).1)
  rw [← h, trapz, mul_sum]
  refine sum_congr rfl fun i hi => ?_
  have := mem_range.1 hi
  rw [(interp_cell_integral hx (by omega)).2]; ring
