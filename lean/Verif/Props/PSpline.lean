import Verif.Model.NumpyroDistributions
import Mathlib.Algebra.Group.ForwardDiff
import Mathlib.RingTheory.Polynomial.Pochhammer

/-! # Property C30: the P-spline difference penalty -/

open Finset Polynomial
noncomputable section
namespace GW

/-- Specification: the coefficients `c 0 … c (N-1)` are the values of a polynomial of degree `< n` at consecutive
integers. -/
def IsPolyOfDegreeLt (N n : ℕ) (c : ℕ → ℝ) : Prop := ∃ P : ℝ[X], P.degree < n ∧ ∀ i < N, c i = P.eval (i : ℝ)

theorem diffN_congr {n : ℕ} {c c' : ℕ → ℝ} {i : ℕ} (h : ∀ k ≤ n, c (i + k) = c' (i + k)) :
    diffN n c i = diffN n c' i := by
  induction n generalizing c c' with
  | zero => exact h 0 (le_refl _)
  | succ n ih =>
    refine ih fun k hk => ?_
    have h1 := h k (by omega)
    have h2 := h (k + 1) (by omega)
    rw [h1, show i + k + 1 = i + (k + 1) by ring, h2]

theorem diffN_eq_fwdDiff (n : ℕ) (c : ℕ → ℝ) : diffN n c = (fwdDiff 1)^[n] c := by
  induction n generalizing c with
  | zero => rfl
  | succ n ih => rw [Function.iterate_succ_apply, ← ih]; rfl

theorem diffN_zero (n : ℕ) : diffN n (fun _ => 0) = fun _ => 0 := by
  induction n with
  | zero => rfl
  | succ n ih => simp only [diffN, sub_self, ih]

theorem diffN_add (n : ℕ) (c e : ℕ → ℝ) (i : ℕ) : diffN n (fun i => c i + e i) i = diffN n c i + diffN n e i := by
  induction n generalizing c e with
  | zero => rfl
  | succ n ih =>
    simp only [diffN]
    rw [← ih]
    congr 1; funext i; ring

theorem diffN_smul (n : ℕ) (t : ℝ) (c : ℕ → ℝ) (i : ℕ) : diffN n (fun i => t * c i) i = t * diffN n c i := by
  induction n generalizing c with
  | zero => rfl
  | succ n ih => simp only [diffN]; rw [← ih]; congr 1; funext i; ring

theorem diffN_poly {n : ℕ} {P : ℝ[X]} (hP : P.degree < n) (i : ℕ) : diffN n (fun i => P.eval (i : ℝ)) i = 0 := by
  rcases eq_or_ne P 0 with rfl | h0
  · simp [diffN_zero]
  have hd : P.natDegree < n := (Polynomial.natDegree_lt_iff_degree_lt h0).2 hP
  have h1 := congr_fun (Polynomial.fwdDiff_iter_eq_zero_of_degree_lt hd) (i : ℝ)
  rw [fwdDiff_iter_eq_sum_shift] at h1
  rw [diffN_eq_fwdDiff, fwdDiff_iter_eq_sum_shift]
  simpa using h1

theorem diffN_comp (a b : ℕ) (c : ℕ → ℝ) : diffN (a + b) c = diffN b (diffN a c) := by
  rw [diffN_eq_fwdDiff, diffN_eq_fwdDiff, diffN_eq_fwdDiff, ← Function.iterate_add_apply, add_comm]

/-- if all `n`-th differences available from `N` coefficients vanish, the coefficients are polynomial -/
theorem poly_of_diffN_zero {N n : ℕ} {c : ℕ → ℝ} (h : ∀ i < N - n, diffN n c i = 0) : IsPolyOfDegreeLt N n c := by
  refine ⟨∑ k ∈ range n, Polynomial.C (diffN k c 0 / (k.factorial : ℝ)) * descPochhammer ℝ k, ?_, ?_⟩
  · rcases Nat.eq_zero_or_pos n with rfl | hn
    · simp
    refine (Polynomial.degree_sum_le _ _).trans_lt ?_
    rw [Finset.sup_lt_iff (by exact_mod_cast WithBot.bot_lt_coe n)]
    intro k hk
    refine (Polynomial.degree_le_natDegree).trans_lt ?_
    have h2 := (Polynomial.natDegree_C_mul_le (diffN k c 0 / (k.factorial : ℝ)) (descPochhammer ℝ k))
    rw [descPochhammer_natDegree] at h2
    exact_mod_cast h2.trans_lt (mem_range.1 hk)
  · intro i hi
    have hz : ∀ k, n ≤ k → k < N → diffN k c 0 = 0 := by
      intro k hk hkN
      obtain ⟨m, rfl⟩ := Nat.exists_eq_add_of_le hk
      rw [diffN_comp]
      rw [diffN_congr (c' := fun _ => 0), diffN_zero]
      intro j hj
      rw [zero_add]; exact h j (by omega)
    have newton := shift_eq_sum_fwdDiff_iter (h := (1:ℕ)) c i 0
    rw [zero_add, smul_eq_mul, mul_one] at newton
    rw [newton, eval_finsetSum]
    simp only [eval_mul, eval_C, descPochhammer_eval_eq_descFactorial, nsmul_eq_mul, ← diffN_eq_fwdDiff]
    have hterm : ∀ k, (i.choose k : ℝ) * diffN k c 0 = diffN k c 0 / (k.factorial : ℝ) * (i.descFactorial k : ℝ) := by
      intro k
      have hk : (k.factorial : ℝ) ≠ 0 := by exact_mod_cast k.factorial_ne_zero
      rw [Nat.descFactorial_eq_factorial_mul_choose]
      push_cast
      field_simp
    simp only [hterm]
    have hbig : ∀ k, k ∉ range (Nat.min n (i + 1)) → (k < n ∨ k < i + 1) →
        diffN k c 0 / (k.factorial : ℝ) * (i.descFactorial k : ℝ) = 0 := by
      intro k hk hk'
      have : ¬ (k < n ∧ k < i + 1) := by
        intro hc; apply hk; rw [mem_range]; exact lt_min hc.1 hc.2
      rcases Nat.lt_or_ge k n with h1 | h1
      · have : i < k := by omega
        rw [Nat.descFactorial_of_lt this]; simp
      · rw [hz k h1 (by omega)]; simp
    have e1 : ∑ k ∈ range (i + 1), diffN k c 0 / (k.factorial : ℝ) * (i.descFactorial k : ℝ)
        = ∑ k ∈ range (Nat.min n (i + 1)), diffN k c 0 / (k.factorial : ℝ) * (i.descFactorial k : ℝ) := by
      refine (sum_subset (fun k hk => ?_) fun k hk hk' => ?_).symm
      · rw [mem_range] at hk ⊢; exact hk.trans_le (min_le_right _ _)
      · exact hbig k hk' (Or.inr (mem_range.1 hk))
    have e2 : ∑ k ∈ range n, diffN k c 0 / (k.factorial : ℝ) * (i.descFactorial k : ℝ)
        = ∑ k ∈ range (Nat.min n (i + 1)), diffN k c 0 / (k.factorial : ℝ) * (i.descFactorial k : ℝ) := by
      refine (sum_subset (fun k hk => ?_) fun k hk hk' => ?_).symm
      · rw [mem_range] at hk ⊢; exact hk.trans_le (min_le_left _ _)
      · exact hbig k hk' (Or.inl (mem_range.1 hk))
    rw [e1, e2]

/-- **C30.** Sign. -/
theorem C30_penalty_nonpos (N n : ℕ) (c : ℕ → ℝ) (iv : ℝ) (h : 0 ≤ iv) : apply_difference_prior N c iv n ≤ 0 := by
  unfold apply_difference_prior
  have : 0 ≤ ∑ i ∈ range (N - n), diffN n c i * diffN n c i := sum_nonneg fun i _ => mul_self_nonneg _
  nlinarith [mul_nonneg h this]

/-- **C30.** Null space: for positive inverse variance the penalty vanishes exactly on the coefficient vectors that are
values of a polynomial of degree below the difference order. -/
theorem C30_penalty_null_space (N n : ℕ) (c : ℕ → ℝ) (iv : ℝ) (h : 0 < iv) :
    apply_difference_prior N c iv n = 0 ↔ IsPolyOfDegreeLt N n c := by
  unfold apply_difference_prior
  constructor
  · intro h0
    have hs : ∑ i ∈ range (N - n), diffN n c i * diffN n c i = 0 := by
      rcases mul_eq_zero.1 h0 with h1 | h1
      · exfalso; norm_num at h1; exact h.ne' h1
      · exact h1
    rw [sum_eq_zero_iff_of_nonneg fun i _ => mul_self_nonneg _] at hs
    exact poly_of_diffN_zero fun i hi => mul_self_eq_zero.1 (hs i (mem_range.2 hi))
  · rintro ⟨P, hP, hc⟩
    rw [sum_eq_zero, mul_zero]
    intro i hi
    have : diffN n c i = 0 := by
      rw [diffN_congr (c' := fun i => P.eval (i : ℝ)), diffN_poly hP]
      intro k hk
      exact hc _ (by have := mem_range.1 hi; omega)
    rw [this, mul_zero]

/-- **C30.** Adding such a polynomial does not change the penalty. -/
theorem C30_penalty_invariant (N n : ℕ) (c e : ℕ → ℝ) (iv : ℝ) (he : IsPolyOfDegreeLt N n e) :
    apply_difference_prior N (fun i => c i + e i) iv n = apply_difference_prior N c iv n := by
  obtain ⟨P, hP, hc⟩ := he
  unfold apply_difference_prior
  congr 1
  refine sum_congr rfl fun i hi => ?_
  have : diffN n e i = 0 := by
    rw [diffN_congr (c' := fun i => P.eval (i : ℝ)), diffN_poly hP]
    intro k hk
    exact hc _ (by have := mem_range.1 hi; omega)
  rw [diffN_add, this, add_zero]

/-- **C30.** Linear in the inverse variance, quadratic in the coefficients. -/
theorem C30_penalty_scaling (N n : ℕ) (c : ℕ → ℝ) (iv s t : ℝ) :
    apply_difference_prior N c (s * iv) n = s * apply_difference_prior N c iv n ∧
    apply_difference_prior N (fun i => t * c i) iv n = t ^ 2 * apply_difference_prior N c iv n := by
  unfold apply_difference_prior
  constructor
  · ring
  · simp only [diffN_smul]
    rw [mul_left_comm, mul_sum (a := t ^ 2)]
    congr 1
    exact sum_congr rfl fun i _ => by ring

theorem diffN_reverse (n : ℕ) : ∀ (N : ℕ) (c : ℕ → ℝ) (i : ℕ), i + n < N →
    diffN n (fun i => c (N - 1 - i)) i = (-1) ^ n * diffN n c (N - 1 - n - i) := by
  induction n with
  | zero => intro N c i h; simp [diffN]
  | succ n ih =>
    intro N c i h
    have h1 := ih (N - 1) (fun i => -(c (i + 1) - c i)) i (by omega)
    have h2 : diffN (n + 1) (fun i => c (N - 1 - i)) i = diffN n (fun i => -(c (N - 1 - 1 - i + 1) - c (N - 1 - 1 - i))) i := by
      simp only [diffN]
      refine diffN_congr fun k hk => ?_
      have e1 : N - 1 - (i + k + 1) = N - 1 - 1 - (i + k) := by omega
      have e2 : N - 1 - (i + k) = N - 1 - 1 - (i + k) + 1 := by omega
      rw [e1, e2]; ring
    rw [h2, h1]
    have h3 := diffN_smul n (-1) (fun i => c (i + 1) - c i) (N - 1 - 1 - n - i)
    simp only [neg_one_mul] at h3
    rw [h3, show N - 1 - (n + 1) - i = N - 1 - 1 - n - i by omega]
    simp only [diffN]
    ring

/-- **C30.** Reversing the coefficient vector does not change the penalty. -/
theorem C30_penalty_reverse (N n : ℕ) (c : ℕ → ℝ) (iv : ℝ) :
    apply_difference_prior N (fun i => c (N - 1 - i)) iv n = apply_difference_prior N c iv n := by
  unfold apply_difference_prior
  congr 1
  rw [← sum_range_reflect (fun i => diffN n c i * diffN n c i)]
  refine sum_congr rfl fun i hi => ?_
  have := mem_range.1 hi
  rw [diffN_reverse n N c i (by omega), show N - n - 1 - i = N - 1 - n - i by omega, mul_mul_mul_comm, ← mul_pow]
  norm_num

/-- **C30.** The distribution object accepts exactly vectors of its own length and then returns the penalty. -/
theorem C30_distribution_agrees (N n : ℕ) (iv : ℝ) (v : Arr ℝ) :
    (v.len = N → pspline_log_prob N iv n v = .ok (apply_difference_prior v.len v.get iv n)) ∧
    (v.len ≠ N → ∃ e, pspline_log_prob N iv n v = .error e) := by
  constructor
  · rintro rfl; simp [pspline_log_prob]
  · intro h; exact ⟨_, by simp [pspline_log_prob, h]; rfl⟩

/-- a linear coefficient vector lies in the null space of the default order-2 prior -/
example : apply_difference_prior 10 (fun i => 3 * (i : ℝ) + 1) 5 2 = 0 := by
  rw [C30_penalty_null_space 10 2 _ 5 (by norm_num)]
  refine ⟨Polynomial.C 3 * Polynomial.X + Polynomial.C 1, ?_, fun i _ => by simp⟩
  exact lt_of_le_of_lt Polynomial.degree_linear_le (by norm_num)

end GW
end
