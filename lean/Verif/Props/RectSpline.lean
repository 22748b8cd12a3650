import Verif.Model.RectSpline

/-! # Property C15: the tensor-product spline -/

open Finset
noncomputable section
namespace GW

/-- **C15 fails.** `bases` raises `AttributeError: reset_bases` for every instance and every input. -/
theorem C15_bases_fails (r : Rect) (x y : ℝ) : r.bases x y = .error (.attribute "reset_bases") := by
  have : "reset_bases" ∉ rectAttrs := by decide
  simp [Rect.bases, Rect.basesWith, getAttr, this, bind, Except.bind]

/-- **C15 fails.** The default construction (`normalize=True`) never succeeds, whatever the arguments. -/
theorem C15_construct_fails (xdf ydf : ℕ) (xlo xhi ylo yhi : ℝ) (kx ky : ℕ) (r : Rect) :
    Rect.init xdf ydf xlo xhi ylo yhi kx ky true ≠ .ok r := by
  unfold Rect.init
  split
  · simp
  · split
    · simp
    · simp [C15_bases_fails, Except.map]

/-- **C15** (what is left): with `normalize=False` construction succeeds whenever both component splines can be
built — but the object can then not be evaluated (`C15_bases_fails`). -/
theorem C15_construct_partial (xdf ydf : ℕ) (xlo xhi ylo yhi : ℝ) (kx ky : ℕ) (sx sy : Spline)
    (hx : Spline.init xdf none none xlo xhi kx = .ok sx) (hy : Spline.init ydf none none ylo yhi ky = .ok sy) :
    ∃ r, Rect.init xdf ydf xlo xhi ylo yhi kx ky false = .ok r ∧ r.xdf = xdf ∧ r.ydf = ydf := by
  exact ⟨⟨xdf, ydf, sx.bBases, sy.bBases, false⟩, by simp [Rect.init, hx, hy], rfl, rfl⟩

/-- The array `bases` builds before raising does not have the documented layout: for equal dimensions entry `(a, b)` is
`x_b * y_a`, the transpose of the documented `(xdf, ydf)` tensor product. -/
theorem C15_layout_transposed (r : Rect) (h : r.xdf = r.ydf) (x y : ℝ) (a b : ℕ) (hb : b < r.ydf) :
    r.out x y a b = r.xb b x * r.yb a y := by
  unfold Rect.out
  rw [h]
  have h1 : (a * r.ydf + b) % r.ydf = b := by rw [Nat.mul_comm, Nat.mul_add_mod]; exact Nat.mod_eq_of_lt hb
  have h2 : (a * r.ydf + b) / r.ydf = a := by
    rw [Nat.mul_comm, Nat.mul_add_div (by omega), Nat.div_eq_of_lt hb]; omega
  rw [h1, h2]

/-- **C15 fails** even if the missing method existed: for all dimensions with at least two components in each
direction there are basis values for which the returned entry `(0, 1)` differs from `x_0 * y_1`. -/
theorem C15_layout_fails (xdf ydf : ℕ) (hx : 2 ≤ xdf) (hy : 2 ≤ ydf) :
    ∃ (r : Rect) (out : ℕ → ℕ → ℝ), r.xdf = xdf ∧ r.ydf = ydf ∧
      r.basesWith ("reset_bases" :: rectAttrs) 0 0 = .ok out ∧ out 0 1 ≠ r.xb 0 0 * r.yb 1 0 := by
  refine ⟨⟨xdf, ydf, fun i _ => i, fun j _ => 1 + j, false⟩, _, rfl, rfl,
    by simp [Rect.basesWith, getAttr, bind, Except.bind, pure, Except.pure]; rfl, ?_⟩
  simp only [Rect.out]
  rw [show (0 * ydf + 1) % xdf = 1 by rw [zero_mul, zero_add]; exact Nat.mod_eq_of_lt (by omega),
    show (0 * ydf + 1) / xdf = 0 by rw [zero_mul, zero_add]; exact Nat.div_eq_of_lt (by omega)]
  norm_num

/-- **C15** (projection step, the part that runs): for every tensor of basis values and every coefficient grid the
projection is a positive number whose logarithm is the double sum over both indices, so adding coefficient grids
multiplies the surfaces. -/
theorem C15_project_partial (r : Rect) (B c d : ℕ → ℕ → ℝ) :
    0 < r.project_ B c ∧
    Real.log (r.project_ B c) = ∑ ij ∈ Finset.range r.xdf ×ˢ Finset.range r.ydf, B ij.1 ij.2 * c ij.1 ij.2 ∧
    r.project_ B (fun i j => c i j + d i j) = r.project_ B c * r.project_ B d ∧
    r.project_ B (fun _ _ => 0) = 1 := by
  refine ⟨Real.exp_pos _, ?_, ?_, ?_⟩
  · unfold Rect.project_; rw [Real.log_exp, Finset.sum_product]
  · unfold Rect.project_
    rw [← Real.exp_add, ← Finset.sum_add_distrib]
    refine congrArg _ (Finset.sum_congr rfl fun i _ => ?_)
    rw [← Finset.sum_add_distrib]
    exact Finset.sum_congr rfl fun j _ => by ring
  · simp [Rect.project_]

example : ∃ s, Spline.init 6 none none 0 1 4 = .ok s := by
  refine ⟨_, by simp [Spline.init, linspace, extendKnots, bind, Except.bind, pure, Except.pure]; rfl⟩

end GW
end
