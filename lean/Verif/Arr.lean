import Mathlib.Data.Real.Basic
import Mathlib.Algebra.BigOperators.Intervals
import Mathlib.Algebra.BigOperators.Field
import Mathlib.Algebra.Order.BigOperators.Ring.Finset
import Mathlib.Tactic.Ring
import Mathlib.Tactic.FieldSimp
import Mathlib.Tactic.Linarith
import Verif.Num

/-!
# Arrays and the numpy/JAX array routines used by the code

A 1-D array is a length together with an index function; indices at or beyond the length are junk and are
never read by the modelled code (theorems state the bounds they use).
-/

open Finset

noncomputable section

/-- A 1-D numpy/JAX array of `α`. -/
structure Arr (α : Type*) where
  /-- `len(a)` -/
  len : ℕ
  /-- `a[i]` -/
  get : ℕ → α

/-- Models `np.linspace(a, b, n)` (numpy): entry `i` is `a + i*(b-a)/(n-1)`; for `n = 1` the only entry is `a`. -/
def linspace (a b : ℝ) (n : ℕ) : Arr ℝ := ⟨n, fun i => a + i * ((b - a) / ((n : ℝ) - 1))⟩

/-- Models `jax.scipy.integrate.trapezoid(y, x)` on the first `n` entries:
`0.5 * sum(diff(x) * (y[1:] + y[:-1]))`, finite data. -/
def trapz (n : ℕ) (y x : ℕ → ℝ) : ℝ :=
  0.5 * ∑ i ∈ range (n - 1), (x (i + 1) - x i) * (y (i + 1) + y i)

/-- The same routine on model floats (special values allowed). -/
def trapzF (n : ℕ) (y x : ℕ → F) : F :=
  F.fin 0.5 * ∑ i ∈ range (n - 1), (x (i + 1) - x i) * (y (i + 1) + y i)

open Classical in
/-- number of leading table entries `≤ x`; on a sorted table this is `jnp.searchsorted(xp, x, side="right")` -/
def countLE (n : ℕ) (xp : ℕ → ℝ) (x : ℝ) : ℕ := ((range n).filter (fun j => xp j ≤ x)).card

open Classical in
/-- Models `jnp.interp(x, xp, fp)` (JAX `_interp`) for a sorted table with `n ≥ 2` entries:
`i = clip(searchsorted(xp, x, 'right'), 1, n-1)`, linear formula on the cell `[i-1, i]`
(value `fp[i-1]` when the cell has zero width), clamped to `fp[0]` / `fp[n-1]` outside.
Simplification: JAX treats a cell as zero-width when its width is below `spacing(eps)`; here when it is `0`. -/
def interp (n : ℕ) (xp fp : ℕ → ℝ) (x : ℝ) : ℝ :=
  let i := min (max (countLE n xp x) 1) (n - 1)
  let f := if xp i - xp (i - 1) = 0 then fp (i - 1)
    else fp (i - 1) + ((x - xp (i - 1)) / (xp i - xp (i - 1))) * (fp i - fp (i - 1))
  if x < xp 0 then fp 0 else if xp (n - 1) < x then fp (n - 1) else f

/-! ### basic facts -/

theorem trapz_congr {n : ℕ} {y y' x x' : ℕ → ℝ} (hy : ∀ i < n, y i = y' i) (hx : ∀ i < n, x i = x' i) :
    trapz n y x = trapz n y' x' := by
  unfold trapz
  congr 1
  refine sum_congr rfl fun i hi => ?_
  have : i + 1 < n := by have := mem_range.1 hi; omega
  rw [hy i (by omega), hy (i+1) this, hx i (by omega), hx (i+1) this]

theorem trapz_add (n : ℕ) (y z x : ℕ → ℝ) :
    trapz n (fun i => y i + z i) x = trapz n y x + trapz n z x := by
  unfold trapz; rw [← mul_add, ← sum_add_distrib]; congr 1
  exact sum_congr rfl fun i _ => by ring

theorem trapz_smul (n : ℕ) (c : ℝ) (y x : ℕ → ℝ) :
    trapz n (fun i => c * y i) x = c * trapz n y x := by
  unfold trapz; rw [mul_left_comm, mul_sum]
  rw [mul_sum, mul_sum]; exact sum_congr rfl fun i _ => by ring

theorem trapz_mul_right (n : ℕ) (c : ℝ) (y x : ℕ → ℝ) :
    trapz n (fun i => y i * c) x = trapz n y x * c := by
  rw [mul_comm, ← trapz_smul]; congr 1; funext i; ring

theorem trapz_div (n : ℕ) (c : ℝ) (y x : ℕ → ℝ) :
    trapz n (fun i => y i / c) x = trapz n y x / c := by
  simp only [div_eq_mul_inv, trapz_mul_right]

/-- dividing by its own trapezoid integral normalises -/
theorem trapz_normalise (n : ℕ) (y x : ℕ → ℝ) (h : trapz n y x ≠ 0) :
    trapz n (fun i => y i * (1 / trapz n y x)) x = 1 := by
  rw [trapz_mul_right, mul_one_div, div_self h]

theorem trapz_sum {ι : Type*} (s : Finset ι) (n : ℕ) (y : ι → ℕ → ℝ) (x : ℕ → ℝ) :
    trapz n (fun i => ∑ j ∈ s, y j i) x = ∑ j ∈ s, trapz n (y j) x := by
  unfold trapz
  rw [← mul_sum, sum_comm]; congr 1
  refine sum_congr rfl fun i _ => ?_
  rw [← mul_sum, ← sum_add_distrib]

theorem trapz_nonneg {n : ℕ} {y x : ℕ → ℝ} (hy : ∀ i < n, 0 ≤ y i)
    (hx : ∀ i, i + 1 < n → x i ≤ x (i + 1)) : 0 ≤ trapz n y x := by
  unfold trapz
  refine mul_nonneg (by norm_num) (sum_nonneg fun i hi => ?_)
  have : i + 1 < n := by have := mem_range.1 hi; omega
  have h1 := hy i (by omega); have h2 := hy (i+1) this; have h3 := hx i this
  exact mul_nonneg (by linarith) (by linarith)

/-- positive data on a strictly increasing grid with at least two points has a positive integral -/
theorem trapz_pos {n : ℕ} (hn : 2 ≤ n) {y x : ℕ → ℝ} (hy : ∀ i < n, 0 < y i)
    (hx : ∀ i, i + 1 < n → x i < x (i + 1)) : 0 < trapz n y x := by
  unfold trapz
  refine mul_pos (by norm_num) (sum_pos (fun i hi => ?_) ⟨0, by simp; omega⟩)
  have : i + 1 < n := by have := mem_range.1 hi; omega
  have h1 := hy i (by omega); have h2 := hy (i+1) this; have h3 := hx i this
  exact mul_pos (by linarith) (by linarith)

theorem trapzF_fin (n : ℕ) (y x : ℕ → ℝ) :
    trapzF n (fun i => F.fin (y i)) (fun i => F.fin (x i)) = F.fin (trapz n y x) := by
  simp [trapzF, trapz]

theorem trapzF_congr {n : ℕ} {y y' x x' : ℕ → F} (hy : ∀ i < n, y i = y' i) (hx : ∀ i < n, x i = x' i) :
    trapzF n y x = trapzF n y' x' := by
  unfold trapzF
  congr 1
  refine sum_congr rfl fun i hi => ?_
  have : i + 1 < n := by have := mem_range.1 hi; omega
  rw [hy i (by omega), hy (i+1) this, hx i (by omega), hx (i+1) this]

theorem linspace_get (a b : ℝ) (n i : ℕ) :
    (linspace a b n).get i = a + i * ((b - a) / ((n : ℝ) - 1)) := rfl

theorem linspace_zero (a b : ℝ) (n : ℕ) : (linspace a b n).get 0 = a := by simp [linspace]

theorem linspace_last (a b : ℝ) {n : ℕ} (hn : 2 ≤ n) : (linspace a b n).get (n - 1) = b := by
  have h1 : ((n - 1 : ℕ) : ℝ) = (n : ℝ) - 1 := by
    rw [Nat.cast_sub (by omega)]; simp
  have h2 : (n : ℝ) - 1 ≠ 0 := by
    have : (2 : ℝ) ≤ n := by exact_mod_cast hn
    intro h; linarith
  rw [linspace_get, h1, mul_div_cancel₀ _ h2]; ring

theorem linspace_strictMono {a b : ℝ} (hab : a < b) {n : ℕ} (hn : 2 ≤ n) :
    StrictMono (linspace a b n).get := by
  have h2 : 0 < (n : ℝ) - 1 := by
    have : (2 : ℝ) ≤ n := by exact_mod_cast hn
    linarith
  have hp : 0 < (b - a) / ((n : ℝ) - 1) := div_pos (by linarith) h2
  intro i j hij
  have : (i : ℝ) < j := by exact_mod_cast hij
  simp only [linspace_get]
  nlinarith

theorem linspace_mem {a b : ℝ} (hab : a ≤ b) {n : ℕ} (hn : 2 ≤ n) {i : ℕ} (hi : i < n) :
    a ≤ (linspace a b n).get i ∧ (linspace a b n).get i ≤ b := by
  have h2 : 0 < (n : ℝ) - 1 := by
    have : (2 : ℝ) ≤ n := by exact_mod_cast hn
    linarith
  have hi' : (i : ℝ) ≤ n - 1 := by
    have : ((i + 1 : ℕ) : ℝ) ≤ n := by exact_mod_cast hi
    push_cast at this; linarith
  have h0 : 0 ≤ (b - a) / ((n : ℝ) - 1) := div_nonneg (by linarith) h2.le
  have h1 : (i : ℝ) * ((b - a) / ((n : ℝ) - 1)) ≤ (n - 1) * ((b - a) / ((n : ℝ) - 1)) :=
    mul_le_mul_of_nonneg_right hi' h0
  rw [mul_div_cancel₀ _ h2.ne'] at h1
  rw [linspace_get]
  constructor
  · have : 0 ≤ (i : ℝ) * ((b - a) / ((n : ℝ) - 1)) := by positivity
    linarith
  · linarith

end
