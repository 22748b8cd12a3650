import Verif.Lemmas.Interp
import Mathlib.Analysis.Calculus.ContDiff.Deriv
import Mathlib.Analysis.Calculus.Deriv.Basic
import Mathlib.Analysis.Calculus.Deriv.Pow

/-! # Gluing differentiable pieces at knots -/

open Set Filter Topology
noncomputable section
namespace GW

/-- index of the cell containing `z` -/
def cellIdx (n : ℕ) (x : ℕ → ℝ) (z : ℝ) : ℕ := min (countLE n x z - 1) (n - 2)

theorem cellIdx_eq {n : ℕ} {x : ℕ → ℝ} (hn : 2 ≤ n) (h : IncOn n x) {i : ℕ} (hi : i ≤ n - 2) {z : ℝ}
    (h1 : i = 0 ∨ x i ≤ z) (h2 : i = n - 2 ∨ z < x (i + 1)) : cellIdx n x z = i := by
  unfold cellIdx
  by_cases hlo : x i ≤ z
  · by_cases hhi : z < x (i + 1)
    · rw [countLE_cell h (by omega) hlo hhi]; omega
    · have h2' : i = n - 2 := by tauto
      have : n - 2 + 1 = n - 1 := by omega
      rw [countLE_top h (by omega) (by rw [← this, ← h2']; linarith)]; omega
  · have h1' : i = 0 := by tauto
    subst h1'
    have : countLE n x z = 0 := by
      unfold countLE
      rw [Finset.card_eq_zero, Finset.filter_eq_empty_iff]
      intro j hj
      have := h.le (Nat.zero_le j) (Finset.mem_range.1 hj)
      push Not; push Not at hlo; linarith
    rw [this]; omega

theorem cellIdx_spec {n : ℕ} {x : ℕ → ℝ} (hn : 2 ≤ n) (h : IncOn n x) (z : ℝ) :
    cellIdx n x z ≤ n - 2 ∧ (cellIdx n x z = 0 ∨ x (cellIdx n x z) ≤ z) ∧
      (cellIdx n x z = n - 2 ∨ z < x (cellIdx n x z + 1)) := by
  by_cases h0 : z < x 1
  · rw [cellIdx_eq hn h (Nat.zero_le _) (Or.inl rfl) (Or.inr h0)]
    exact ⟨Nat.zero_le _, Or.inl rfl, Or.inr h0⟩
  by_cases h1 : x (n - 2) ≤ z
  · rw [cellIdx_eq hn h (le_refl _) (Or.inr h1) (Or.inl rfl)]
    exact ⟨le_refl _, Or.inr h1, Or.inl rfl⟩
  push Not at h0 h1
  obtain ⟨i, hi, ha, hb⟩ : ∃ i, i + 1 ≤ n - 2 ∧ x i ≤ z ∧ z < x (i + 1) := by
    have : ∀ m, m ≤ n - 2 → z < x m → 1 ≤ m → ∃ i, i + 1 ≤ n - 2 ∧ x i ≤ z ∧ z < x (i + 1) := by
      intro m
      induction m with
      | zero => intro _ _ h; omega
      | succ m ih =>
        intro hm hz _
        by_cases hc : x m ≤ z
        · exact ⟨m, hm, hc, hz⟩
        · push Not at hc
          rcases Nat.eq_zero_or_pos m with rfl | hp
          · exact absurd hz (not_lt.2 h0)
          · exact ih (by omega) hc hp
    refine this (n - 2) (le_refl _) h1 ?_
    by_contra hc
    have : n - 2 = 0 := by omega
    rw [this] at h1
    have := h.le (Nat.zero_le 1) (by omega)
    linarith
  rw [cellIdx_eq hn h (by omega) (Or.inr ha) (Or.inr hb)]
  exact ⟨by omega, Or.inr ha, Or.inr hb⟩

/-- the glued function -/
def glue (n : ℕ) (x : ℕ → ℝ) (P : ℕ → ℝ → ℝ) (z : ℝ) : ℝ := P (cellIdx n x z) z

/-- on the right of `z` the cell does not change; on the left it changes only at a knot -/
theorem cellIdx_right {n : ℕ} {x : ℕ → ℝ} (hn : 2 ≤ n) (h : IncOn n x) (z : ℝ) :
    ∀ᶠ w in 𝓝[≥] z, cellIdx n x w = cellIdx n x z := by
  obtain ⟨h1, h2, h3⟩ := cellIdx_spec hn h z
  have ev : ∀ᶠ w in 𝓝[≥] z, cellIdx n x z = n - 2 ∨ w < x (cellIdx n x z + 1) := by
    rcases h3 with h3 | h3
    · exact Eventually.of_forall fun _ => Or.inl h3
    · exact ((eventually_lt_nhds h3).filter_mono nhdsWithin_le_nhds).mono fun _ hw => Or.inr hw
  filter_upwards [ev, self_mem_nhdsWithin] with w hw hz
  refine cellIdx_eq hn h h1 ?_ hw
  rcases h2 with h2 | h2
  · exact Or.inl h2
  · exact Or.inr (h2.trans hz)

theorem cellIdx_left {n : ℕ} {x : ℕ → ℝ} (hn : 2 ≤ n) (h : IncOn n x) (z : ℝ) :
    (∀ᶠ w in 𝓝[<] z, cellIdx n x w = cellIdx n x z) ∨
    (∃ i, i + 1 ≤ n - 2 ∧ z = x (i + 1) ∧ cellIdx n x z = i + 1 ∧ ∀ᶠ w in 𝓝[<] z, cellIdx n x w = i) := by
  obtain ⟨h1, h2, h3⟩ := cellIdx_spec hn h z
  by_cases hk : cellIdx n x z = 0 ∨ x (cellIdx n x z) < z
  · left
    have ev : ∀ᶠ w in 𝓝[<] z, cellIdx n x z = 0 ∨ x (cellIdx n x z) ≤ w := by
      rcases hk with hk | hk
      · exact Eventually.of_forall fun _ => Or.inl hk
      · exact ((eventually_gt_nhds hk).filter_mono nhdsWithin_le_nhds).mono fun _ hw => Or.inr hw.le
    filter_upwards [ev, self_mem_nhdsWithin] with w hw hz
    refine cellIdx_eq hn h h1 hw ?_
    rcases h3 with h3 | h3
    · exact Or.inl h3
    · exact Or.inr (lt_trans hz h3)
  · right
    push Not at hk
    obtain ⟨hk0, hk1⟩ := hk
    have hz : z = x (cellIdx n x z) := le_antisymm hk1 (by tauto)
    obtain ⟨i, hi⟩ : ∃ i, cellIdx n x z = i + 1 := ⟨cellIdx n x z - 1, by omega⟩
    rw [hi] at hz h1
    refine ⟨i, h1, hz, hi, ?_⟩
    have hlt : x i < z := by rw [hz]; exact h i (by omega)
    filter_upwards [(eventually_gt_nhds hlt).filter_mono nhdsWithin_le_nhds, self_mem_nhdsWithin] with w hw hwz
    exact cellIdx_eq hn h (by omega) (Or.inr hw.le) (Or.inr (by rw [← hz]; exact hwz))

theorem glue_continuous {n : ℕ} {x : ℕ → ℝ} (hn : 2 ≤ n) (h : IncOn n x) {P : ℕ → ℝ → ℝ}
    (hP : ∀ i, Continuous (P i)) (hv : ∀ i, i + 1 ≤ n - 2 → P i (x (i + 1)) = P (i + 1) (x (i + 1))) :
    Continuous (glue n x P) := by
  rw [continuous_iff_continuousAt]
  intro z
  rw [continuousAt_iff_continuous_left'_right']
  constructor
  · rcases cellIdx_left hn h z with hl | ⟨i, hi, hz, hc, hl⟩
    · refine ((hP (cellIdx n x z)).continuousWithinAt).congr_of_eventuallyEq ?_ rfl
      filter_upwards [hl] with w hw; simp [glue, hw]
    · refine ((hP i).continuousWithinAt).congr_of_eventuallyEq ?_ ?_
      · filter_upwards [hl] with w hw; simp [glue, hw]
      · unfold glue; rw [hc]; subst hz; exact (hv i hi).symm
  · have hr := (cellIdx_right hn h z).filter_mono (nhdsWithin_mono z Ioi_subset_Ici_self)
    refine ((hP (cellIdx n x z)).continuousWithinAt).congr_of_eventuallyEq ?_ rfl
    filter_upwards [hr] with w hw; simp [glue, hw]

theorem glue_hasDerivAt {n : ℕ} {x : ℕ → ℝ} (hn : 2 ≤ n) (h : IncOn n x) {P P' : ℕ → ℝ → ℝ}
    (hP : ∀ i z, HasDerivAt (P i) (P' i z) z) (hv : ∀ i, i + 1 ≤ n - 2 → P i (x (i + 1)) = P (i + 1) (x (i + 1)))
    (hd : ∀ i, i + 1 ≤ n - 2 → P' i (x (i + 1)) = P' (i + 1) (x (i + 1))) (z : ℝ) :
    HasDerivAt (glue n x P) (glue n x P' z) z := by
  have R : HasDerivWithinAt (glue n x P) (glue n x P' z) (Ici z) z := by
    refine ((hP (cellIdx n x z) z).hasDerivWithinAt).congr_of_eventuallyEq ?_ rfl
    filter_upwards [cellIdx_right hn h z] with w hw; simp [glue, hw]
  have L : HasDerivWithinAt (glue n x P) (glue n x P' z) (Iio z) z := by
    rcases cellIdx_left hn h z with hl | ⟨i, hi, hz, hc, hl⟩
    · refine ((hP (cellIdx n x z) z).hasDerivWithinAt).congr_of_eventuallyEq ?_ rfl
      filter_upwards [hl] with w hw; simp [glue, hw]
    · have : glue n x P' z = P' i z := by unfold glue; rw [hc]; subst hz; exact (hd i hi).symm
      rw [this]
      refine ((hP i z).hasDerivWithinAt).congr_of_eventuallyEq ?_ ?_
      · filter_upwards [hl] with w hw; simp [glue, hw]
      · unfold glue; rw [hc]; subst hz; exact (hv i hi).symm
  have := L.union R
  rw [Iio_union_Ici] at this
  exact this.hasDerivAt univ_mem

end GW
end
