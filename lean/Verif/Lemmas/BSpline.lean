import Verif.Model.Interpolation

/-! Helper lemmas about the Cox–de Boor recursion of the model. -/

open Finset
noncomputable section
open Classical
namespace GW

variable {t : ℕ → ℝ} {x : ℝ}

theorem knotEps_pos : 0 < knotEps := by norm_num [knotEps]

theorem basis_one (t : ℕ → ℝ) (x : ℝ) (i : ℕ) : basis t x 1 i =
    if t (i + 1) - t i < knotEps then 0
    else if t i ≤ x ∧ x < t (i + 1) then 1 / (t (i + 1) - t i) else 0 := rfl

theorem basis_add_two (t : ℕ → ℝ) (x : ℝ) (k i : ℕ) : basis t x (k + 2) i =
    if t (i + (k + 2)) - t i < knotEps then 0
    else ((x - t i) * basis t x (k + 1) i + (t (i + (k + 2)) - x) * basis t x (k + 1) (i + 1)) * ((k : ℝ) + 2)
      / (((k : ℝ) + 1) * (t (i + (k + 2)) - t i)) := rfl

/-- the recursion only reads knots `i .. i+k` -/
theorem basis_congr {t t' : ℕ → ℝ} (x : ℝ) (k : ℕ) : ∀ i, (∀ j, i ≤ j → j ≤ i + k → t j = t' j) →
    basis t x k i = basis t' x k i := by
  induction k using Nat.strong_induction_on with
  | _ k ih =>
    intro i h
    match k with
    | 0 => rfl
    | 1 =>
      rw [basis_one, basis_one, h i (le_refl _) (by omega), h (i+1) (by omega) (by omega)]
    | k + 2 =>
      rw [basis_add_two, basis_add_two, h i (le_refl _) (by omega), h (i+(k+2)) (by omega) (by omega),
        ih (k+1) (by omega) i (fun j h1 h2 => h j h1 (by omega)),
        ih (k+1) (by omega) (i+1) (fun j h1 h2 => h j (by omega) (by omega))]

theorem basis_eq_zero_of_lt (ht : Monotone t) (k : ℕ) : ∀ i, x < t i → basis t x k i = 0 := by
  induction k using Nat.strong_induction_on with
  | _ k ih =>
    intro i hi
    match k with
    | 0 => rfl
    | 1 => rw [basis_one]; simp [not_le.2 hi]
    | k + 2 =>
      rw [basis_add_two, ih (k+1) (by omega) i hi,
        ih (k+1) (by omega) (i+1) (lt_of_lt_of_le hi (ht (Nat.le_succ i)))]
      simp

theorem basis_eq_zero_of_ge (ht : Monotone t) (k : ℕ) : ∀ i, t (i + k) ≤ x → basis t x k i = 0 := by
  induction k using Nat.strong_induction_on with
  | _ k ih =>
    intro i hi
    match k with
    | 0 => rfl
    | 1 => rw [basis_one]; simp [not_lt.2 hi]
    | k + 2 =>
      rw [basis_add_two, ih (k+1) (by omega) i (le_trans (ht (by omega)) hi),
        ih (k+1) (by omega) (i+1) (by rw [show i + 1 + (k+1) = i + (k+2) by ring]; exact hi)]
      simp

theorem basis_nonneg (ht : Monotone t) (k : ℕ) : ∀ i, 0 ≤ basis t x k i := by
  induction k using Nat.strong_induction_on with
  | _ k ih =>
    intro i
    match k with
    | 0 => exact le_refl _
    | 1 =>
      rw [basis_one]
      have : t i ≤ t (i+1) := ht (Nat.le_succ i)
      split_ifs
      · exact le_refl _
      · exact div_nonneg (by norm_num) (by linarith)
      · exact le_refl _
    | k + 2 =>
      by_cases h1 : x < t i
      · rw [basis_eq_zero_of_lt ht _ _ h1]
      by_cases h2 : t (i + (k+2)) ≤ x
      · rw [basis_eq_zero_of_ge ht _ _ h2]
      rw [not_lt] at h1; rw [not_le] at h2
      rw [basis_add_two]
      split_ifs with h
      · exact le_refl _
      · have hg : 0 ≤ t (i + (k+2)) - t i := by linarith
        have a1 := ih (k+1) (by omega) i
        have a2 := ih (k+1) (by omega) (i+1)
        apply div_nonneg
        · apply mul_nonneg
          · exact add_nonneg (mul_nonneg (by linarith) a1) (mul_nonneg (by linarith) a2)
          · positivity
        · exact mul_nonneg (by positivity) hg

theorem basis_eq_zero_of_degenerate {k i : ℕ} (h : t (i + k) - t i < knotEps) : basis t x k i = 0 := by
  match k with
  | 0 => rfl
  | 1 => rw [basis_one, if_pos h]
  | k + 2 => rw [basis_add_two, if_pos h]

/-- scaled component: `(t[i+k]-t[i])/k * M_{i,k}` (the B-spline) -/
def bsp (t : ℕ → ℝ) (x : ℝ) (k i : ℕ) : ℝ := (t (i + k) - t i) / k * basis t x k i

/-- Cox–de Boor in B-form, valid for every non-decreasing knot vector (degenerate gaps included). -/
theorem bsp_rec (ht : Monotone t) (k i : ℕ) : bsp t x (k + 2) i =
    ((x - t i) * basis t x (k + 1) i + (t (i + (k + 2)) - x) * basis t x (k + 1) (i + 1)) / ((k : ℝ) + 1) := by
  by_cases h : t (i + (k + 2)) - t i < knotEps
  · have h1 : basis t x (k+1) i = 0 := basis_eq_zero_of_degenerate (by
      have : t (i + (k+1)) ≤ t (i + (k+2)) := ht (by omega)
      linarith)
    have h2 : basis t x (k+1) (i+1) = 0 := basis_eq_zero_of_degenerate (by
      have : t i ≤ t (i+1) := ht (by omega)
      rw [show i + 1 + (k+1) = i + (k+2) by ring]
      linarith)
    rw [bsp, basis_eq_zero_of_degenerate h, h1, h2]; simp
  · have hpos : 0 < t (i + (k + 2)) - t i := by
      rw [not_lt] at h; exact lt_of_lt_of_le knotEps_pos h
    rw [bsp, basis_add_two, if_neg h]
    have h1 : ((k : ℝ) + 1) ≠ 0 := by positivity
    have h2 : ((k : ℝ) + 2) ≠ 0 := by positivity
    push_cast
    field_simp

/-- raising the order loses one component on the left: telescoping of the recursion -/
theorem sum_bsp_step (ht : Monotone t) (k a n : ℕ) (hx1 : t (a + (k + 1)) ≤ x) (hx2 : x < t (a + n + 1)) :
    ∑ i ∈ range (n + 1), bsp t x (k + 2) (a + i) = ∑ i ∈ range n, bsp t x (k + 1) (a + 1 + i) := by
  have h0 : basis t x (k+1) a = 0 := basis_eq_zero_of_ge ht _ _ hx1
  have hN : basis t x (k+1) (a + n + 1) = 0 := basis_eq_zero_of_lt ht _ _ hx2
  have key : ∀ m, m ≤ n → ∑ i ∈ range (m + 1), bsp t x (k + 2) (a + i) =
      ∑ i ∈ range m, bsp t x (k + 1) (a + 1 + i)
        + (t (a + m + (k+2)) - x) * basis t x (k+1) (a + m + 1) / ((k:ℝ)+1) := by
    intro m
    induction m with
    | zero =>
      intro _
      simp only [zero_add, sum_range_one, add_zero, range_zero, sum_empty]
      rw [bsp_rec ht, h0]; simp
    | succ m ih =>
      intro hm
      rw [sum_range_succ, ih (by omega), sum_range_succ _ m, bsp_rec ht]
      have e1 : bsp t x (k+1) (a + 1 + m) =
          (t (a + m + (k+2)) - t (a + m + 1)) / ((k:ℝ)+1) * basis t x (k+1) (a + m + 1) := by
        rw [bsp, show a + 1 + m = a + m + 1 by ring, show a + m + 1 + (k+1) = a + m + (k+2) by ring]
        push_cast; rfl
      rw [e1, show a + (m + 1) = a + m + 1 by ring]
      ring
  rw [key n (le_refl _), hN]; simp

theorem sum_bsp_reduce (ht : Monotone t) (n : ℕ) : ∀ (k a : ℕ), t (a + k) ≤ x → x < t (a + k + n) →
    ∑ i ∈ range (n + k), bsp t x (k + 1) (a + i) = ∑ i ∈ range n, bsp t x 1 (a + k + i) := by
  intro k
  induction k with
  | zero => intro a _ _; simp
  | succ k ih =>
    intro a h1 h2
    rw [show n + (k+1) = (n + k) + 1 by ring, show k + 1 + 1 = k + 2 by ring,
      sum_bsp_step ht k a (n + k) h1 (by rw [show a + (n + k) + 1 = a + (k+1) + n by ring]; exact h2),
      ih (a + 1) (by rw [show a + 1 + k = a + (k+1) by ring]; exact h1)
        (by rw [show a + 1 + k + n = a + (k+1) + n by ring]; exact h2)]
    exact sum_congr rfl fun i _ => by rw [show a + 1 + k + i = a + (k+1) + i by ring]

/-- order-1 B-splines are the indicators of the cells -/
theorem bsp_one (i : ℕ) (hg : t (i + 1) = t i ∨ knotEps ≤ t (i + 1) - t i) :
    bsp t x 1 i = if t i ≤ x ∧ x < t (i + 1) then 1 else 0 := by
  rw [bsp, basis_one]
  rcases hg with h | h
  · rw [h]
    have : ¬ (t i ≤ x ∧ x < t i) := fun h => absurd h.1 (not_le.2 h.2)
    simp [this]
  · have hp : 0 < t (i + 1) - t i := lt_of_lt_of_le knotEps_pos h
    rw [if_neg (not_lt.2 h)]
    split_ifs
    · rw [Nat.cast_one, div_one, mul_one_div, div_self hp.ne']
    · simp

theorem sum_indicator (ht : Monotone t) (b : ℕ) (n : ℕ) : t b ≤ x → x < t (b + n) →
    ∑ i ∈ range n, (if t (b + i) ≤ x ∧ x < t (b + i + 1) then (1:ℝ) else 0) = 1 := by
  induction n with
  | zero => intro h1 h2; exact absurd h1 (not_le.2 h2)
  | succ n ih =>
    intro h1 h2
    rw [sum_range_succ]
    by_cases h : x < t (b + n)
    · rw [ih h1 h, if_neg (fun hc => absurd hc.1 (not_le.2 h)), add_zero]
    · rw [not_lt] at h
      rw [if_pos ⟨h, h2⟩, sum_eq_zero, zero_add]
      intro i hi
      have : b + i + 1 ≤ b + n := by have := mem_range.1 hi; omega
      exact if_neg (fun hc => absurd hc.2 (not_lt.2 (le_trans (ht this) h)))

/-- partition of unity on the half-open core interval, every non-decreasing knot vector whose gaps are
either exactly zero or at least the degeneracy threshold -/
theorem partition_of_unity_core (ht : Monotone t)
    (hg : ∀ i, t (i + 1) = t i ∨ knotEps ≤ t (i + 1) - t i) (k n : ℕ)
    (h1 : t k ≤ x) (h2 : x < t (k + n)) :
    ∑ i ∈ range (n + k), bsp t x (k + 1) i = 1 := by
  have := sum_bsp_reduce (x := x) ht n k 0 (by simpa using h1) (by simpa using h2)
  simp only [zero_add] at this
  rw [this, ← sum_indicator ht k n h1 h2]
  exact sum_congr rfl fun i _ => bsp_one _ (hg _)

/-- at its own left knot a component of order ≥ 2 vanishes when the next knot is strictly larger -/
theorem bsp_left_knot (ht : Monotone t) (k i : ℕ) (h : t i < t (i + 1)) : bsp t (t i) (k + 2) i = 0 := by
  rw [bsp_rec ht, basis_eq_zero_of_lt ht _ _ h]; simp

/-- partition of unity including the right end point, for order at least two and a knot strictly beyond it -/
theorem partition_of_unity_closed (ht : Monotone t)
    (hg : ∀ i, t (i + 1) = t i ∨ knotEps ≤ t (i + 1) - t i) (k n : ℕ)
    (hr : t (k + 1 + n) < t (k + 1 + n + 1))
    (h1 : t (k + 1) ≤ x) (h2 : x ≤ t (k + 1 + n)) :
    ∑ i ∈ range (n + (k + 1)), bsp t x (k + 2) i = 1 := by
  rcases h2.lt_or_eq with h | h
  · exact partition_of_unity_core ht hg (k+1) n h1 h
  · have := partition_of_unity_core (x := x) ht hg (k+1) (n+1) h1 (by rw [h]; exact hr)
    rw [show n + 1 + (k+1) = (n + (k+1)) + 1 by ring, sum_range_succ] at this
    rw [show k + 1 + n = n + (k+1) by ring] at h hr
    rw [h, bsp_left_knot ht _ _ (by rw [← h] at hr ⊢; simpa using hr), add_zero] at this
    rw [h]; exact this

end GW
end
