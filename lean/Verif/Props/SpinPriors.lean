import Verif.Model.SpinPriors
import Verif.Props.Conversions
import Verif.Lemmas.Interp
import Mathlib.Analysis.SpecialFunctions.Integrals.Basic
import Mathlib.Analysis.SpecialFunctions.Trigonometric.InverseDeriv
import Mathlib.MeasureTheory.Integral.IntervalIntegral.FundThmCalculus

/-!
# C60–C63: effective-spin priors
-/

noncomputable section
open Classical MeasureTheory
namespace GW

/-! ## C60: aligned spins -/

/-- length of the overlap of `[-a, a]` with `[u - q a, u + q a]`, i.e. of the primary spins `s` for which the secondary spin
`(u - s)/q` needed to make up `u = (1+q) χ_eff` lies in `[-a, a]` -/
def overlap (u q a : ℝ) : ℝ := max 0 (min a (u + q * a) - max (-a) (u - q * a))

theorem aligned_cases {χ q a : ℝ} (hq : 0 < q) (hq1 : q ≤ 1) (ha : 0 < a) :
    alignedPrior χ q a = (1 + q) / (4 * q * a ^ 2) * overlap ((1 + q) * χ) q a := by
  have h1 : 0 < 1 + q := by linarith
  have e1 : ∀ x : ℝ, x > a * (1 - q) / (1 + q) ↔ a * (1 - q) < (1 + q) * x := fun x => by
    rw [gt_iff_lt, div_lt_iff₀ h1]; constructor <;> intro h <;> linarith
  have e2 : ∀ x : ℝ, x < -a * (1 - q) / (1 + q) ↔ (1 + q) * x < -a * (1 - q) := fun x => by
    rw [lt_div_iff₀ h1]; constructor <;> intro h <;> linarith
  have haq : 0 ≤ q * a := by positivity
  unfold alignedPrior overlap
  simp only [e1, e2]
  have e3 : χ ≥ -a * (1 - q) / (1 + q) ↔ -a * (1 - q) ≤ (1 + q) * χ := by
    rw [ge_iff_le, div_le_iff₀ h1]; constructor <;> intro h <;> linarith
  have e4 : χ ≤ a * (1 - q) / (1 + q) ↔ (1 + q) * χ ≤ a * (1 - q) := by
    rw [le_div_iff₀ h1]; constructor <;> intro h <;> linarith
  simp only [e3, e4]
  have e5 : χ ≤ a ↔ (1 + q) * χ ≤ (1 + q) * a := by constructor <;> intro h <;> nlinarith
  have e6 : χ ≥ -a ↔ -((1 + q) * a) ≤ (1 + q) * χ := by constructor <;> intro h <;> nlinarith
  simp only [e5, e6]
  clear e1 e2 e3 e4 e5 e6
  set u := (1 + q) * χ with hu
  have hχ : χ = u / (1 + q) := by rw [hu]; field_simp
  by_cases hA : a * (1 - q) < u ∧ u ≤ (1 + q) * a
  · rw [if_pos hA, min_eq_left (by nlinarith), max_eq_right (b := u - q * a) (by nlinarith), max_eq_right (by nlinarith), hχ]
    field_simp; ring
  · rw [if_neg hA]
    by_cases hB : u < -a * (1 - q) ∧ -((1 + q) * a) ≤ u
    · rw [if_pos hB, min_eq_right (by nlinarith), max_eq_left (b := u - q * a) (by nlinarith), max_eq_right (by nlinarith), hχ]
      field_simp; ring
    · rw [if_neg hB]
      by_cases hC : -a * (1 - q) ≤ u ∧ u ≤ a * (1 - q)
      · rw [if_pos hC, min_eq_right (by nlinarith), max_eq_right (b := u - q * a) (by nlinarith), max_eq_right (by nlinarith)]
        field_simp; ring
      · rw [if_neg hC]
        rw [not_and_or, not_lt, not_le] at hA
        rw [not_and_or, not_lt, not_le] at hB
        rw [not_and_or, not_le, not_le] at hC
        have : min a (u + q * a) - max (-a) (u - q * a) ≤ 0 := by
          rcases hC with hC | hC
          · rcases hB with hB | hB
            · linarith
            · have := min_le_right a (u + q * a); have := le_max_left (-a) (u - q * a); linarith
          · rcases hA with hA | hA
            · linarith
            · have := min_le_left a (u + q * a); have := le_max_right (-a) (u - q * a); linarith
        rw [max_eq_left this, mul_zero]

/-- **C60.** The density is what it should be: with `s₁ = χ₁`, `s₂ = χ₂` independent and uniform on `[-a, a]`, the density of
`χ_eff = (s₁ + q s₂)/(1+q)` is `(1+q)/q · 1/(2a) · 1/(2a)` times the length of the set of `s₁` for which the required `s₂`
is admissible. -/
theorem C60_density {χ q a : ℝ} (hq : 0 < q) (hq1 : q ≤ 1) (ha : 0 < a) :
    alignedPrior χ q a = (1 + q) / q * (1 / (2 * a)) * (1 / (2 * a)) *
      (volume {s : ℝ | s ∈ Set.Icc (-a) a ∧ ((1 + q) * χ - s) / q ∈ Set.Icc (-a) a}).toReal := by
  have hset : {s : ℝ | s ∈ Set.Icc (-a) a ∧ ((1 + q) * χ - s) / q ∈ Set.Icc (-a) a}
      = Set.Icc (max (-a) ((1 + q) * χ - q * a)) (min a ((1 + q) * χ + q * a)) := by
    ext s
    simp only [Set.mem_setOf_eq, Set.mem_Icc, max_le_iff, le_min_iff, le_div_iff₀ hq, div_le_iff₀ hq]
    constructor
    · rintro ⟨⟨h1, h2⟩, h3, h4⟩; exact ⟨⟨h1, by linarith⟩, h2, by linarith⟩
    · rintro ⟨⟨h1, h2⟩, h3, h4⟩; exact ⟨⟨h1, h3⟩, by linarith, by linarith⟩
  rw [hset, Real.volume_Icc, ENNReal.toReal_ofReal', aligned_cases hq hq1 ha, overlap, max_comm]
  field_simp; ring

theorem aligned_nonneg {χ q a : ℝ} (hq : 0 < q) (hq1 : q ≤ 1) (ha : 0 < a) : 0 ≤ alignedPrior χ q a := by
  rw [aligned_cases hq hq1 ha]
  exact mul_nonneg (by positivity) (le_max_left _ _)

/-- **C60.** Non-negative, even, zero outside `(-a, a)` and positive inside. -/
theorem C60_shape {χ q a : ℝ} (hq : 0 < q) (hq1 : q ≤ 1) (ha : 0 < a) :
    0 ≤ alignedPrior χ q a ∧ alignedPrior (-χ) q a = alignedPrior χ q a ∧ (a ≤ |χ| → alignedPrior χ q a = 0) ∧
    (|χ| < a → 0 < alignedPrior χ q a) := by
  have h1 : 0 < 1 + q := by linarith
  have hqa : 0 < q * a := by positivity
  refine ⟨aligned_nonneg hq hq1 ha, ?_, ?_, ?_⟩
  · rw [aligned_cases hq hq1 ha, aligned_cases hq hq1 ha]
    congr 1
    unfold overlap
    congr 1
    have e1 : min a ((1 + q) * -χ + q * a) = -max (-a) ((1 + q) * χ - q * a) := by
      rw [max_def, min_def]; split_ifs <;> linarith
    have e2 : max (-a) ((1 + q) * -χ - q * a) = -min a ((1 + q) * χ + q * a) := by
      rw [max_def, min_def]; split_ifs <;> linarith
    rw [e1, e2]; ring
  · intro h
    rw [aligned_cases hq hq1 ha]
    have : overlap ((1 + q) * χ) q a = 0 := by
      unfold overlap
      refine max_eq_left ?_
      rcases le_abs.1 h with h | h
      · have := min_le_left a ((1 + q) * χ + q * a); have := le_max_right (-a) ((1 + q) * χ - q * a); nlinarith
      · have := min_le_right a ((1 + q) * χ + q * a); have := le_max_left (-a) ((1 + q) * χ - q * a); nlinarith
    rw [this, mul_zero]
  · intro h
    obtain ⟨h2, h3⟩ := abs_lt.1 h
    rw [aligned_cases hq hq1 ha]
    refine mul_pos (by positivity) ?_
    unfold overlap
    refine lt_max_of_lt_right ?_
    rw [sub_pos, max_lt_iff, lt_min_iff, lt_min_iff]
    refine ⟨⟨by linarith, ?_⟩, ?_, ?_⟩ <;> nlinarith

theorem continuous_aligned {q a : ℝ} (hq : 0 < q) (hq1 : q ≤ 1) (ha : 0 < a) : Continuous fun χ => alignedPrior χ q a := by
  have : (fun χ => alignedPrior χ q a) = fun χ => (1 + q) / (4 * q * a ^ 2) * overlap ((1 + q) * χ) q a :=
    funext fun χ => aligned_cases hq hq1 ha
  rw [this]; unfold overlap; fun_prop

/-- **C60.** The density integrates to one. -/
theorem C60_normalised {q a : ℝ} (hq : 0 < q) (hq1 : q ≤ 1) (ha : 0 < a) :
    ∫ χ in (-a)..a, alignedPrior χ q a = 1 := by
  set b := a * (1 - q) / (1 + q) with hb
  have h1 : 0 < 1 + q := by linarith
  have hb0 : 0 ≤ b := div_nonneg (mul_nonneg ha.le (by linarith)) h1.le
  have hba : b ≤ a := by rw [hb, div_le_iff₀ h1]; nlinarith
  have hnb : -a * (1 - q) / (1 + q) = -b := by rw [hb]; ring
  have hI : ∀ x y, IntervalIntegrable (fun χ => alignedPrior χ q a) volume x y :=
    fun x y => (continuous_aligned hq hq1 ha).intervalIntegrable x y
  rw [← intervalIntegral.integral_add_adjacent_intervals (hI (-a) (-b)) (hI (-b) a),
    ← intervalIntegral.integral_add_adjacent_intervals (hI (-b) b) (hI b a)]
  have i1 : ∫ χ in (-a)..(-b), alignedPrior χ q a = ∫ χ in (-a)..(-b), (1 + q) ^ 2 / (4 * q * a ^ 2) * (a + χ) := by
    rw [intervalIntegral.integral_of_le (by linarith), intervalIntegral.integral_of_le (by linarith),
      integral_Ioc_eq_integral_Ioo, integral_Ioc_eq_integral_Ioo]
    refine setIntegral_congr_fun measurableSet_Ioo fun χ hχ => ?_
    have h2 : ¬ (χ > a * (1 - q) / (1 + q) ∧ χ ≤ a) := fun hc => by rw [← hb] at hc; linarith [hc.1, hχ.2]
    have h3 : χ < -a * (1 - q) / (1 + q) ∧ χ ≥ -a := by rw [hnb]; exact ⟨hχ.2, hχ.1.le⟩
    simp only [alignedPrior, if_neg h2, if_pos h3]; ring
  have i2 : ∫ χ in (-b)..b, alignedPrior χ q a = ∫ χ in (-b)..b, (1 + q) / (2 * a) := by
    refine intervalIntegral.integral_congr fun χ hχ => ?_
    rw [Set.uIcc_of_le (by linarith)] at hχ
    have h2 : ¬ (χ > a * (1 - q) / (1 + q) ∧ χ ≤ a) := fun hc => by rw [← hb] at hc; linarith [hc.1, hχ.2]
    have h3 : ¬ (χ < -a * (1 - q) / (1 + q) ∧ χ ≥ -a) := fun hc => by rw [hnb] at hc; linarith [hc.1, hχ.1]
    have h4 : χ ≥ -a * (1 - q) / (1 + q) ∧ χ ≤ a * (1 - q) / (1 + q) := by rw [hnb, ← hb]; exact hχ
    simp only [alignedPrior, if_neg h2, if_neg h3, if_pos h4]
  have i3 : ∫ χ in b..a, alignedPrior χ q a = ∫ χ in b..a, (1 + q) ^ 2 / (4 * q * a ^ 2) * (a - χ) := by
    rw [intervalIntegral.integral_of_le hba, intervalIntegral.integral_of_le hba]
    refine setIntegral_congr_fun measurableSet_Ioc fun χ hχ => ?_
    have h2 : χ > a * (1 - q) / (1 + q) ∧ χ ≤ a := ⟨hχ.1, hχ.2⟩
    simp only [alignedPrior, if_pos h2]; ring
  rw [i1, i2, i3, intervalIntegral.integral_const_mul, intervalIntegral.integral_const_mul, intervalIntegral.integral_const,
    intervalIntegral.integral_add (by simp) (by simp), intervalIntegral.integral_sub (by simp) (by simp)]
  simp only [intervalIntegral.integral_const, integral_id, smul_eq_mul]
  rw [hb]; field_simp; ring

example : ∫ χ in (-0.9 : ℝ)..0.9, alignedPrior χ 0.7 0.9 = 1 := C60_normalised (by norm_num) (by norm_num) (by norm_num)

/-! ## C61: isotropic spins -/

/-- **C61.** Even in `χ_eff`. -/
theorem C61_even (Di : ℝ → ℝ) (depth : ℕ) (χ q a : ℝ) :
    isotropicPrior Di depth (-χ) q a = isotropicPrior Di depth χ q a := by
  cases depth with
  | zero => rfl
  | succ d => simp only [isotropicPrior, abs_neg]

theorem isoSelect_F (Di : ℝ → ℝ) {x q a : ℝ} (hq : 0 < q) (ha : 0 < a) (hx : a ≤ x) : isoSelect Di x q a = some (F.fin 0) := by
  have h1 : 0 < 1 + q := by linarith
  have hb : a * (1 - q) / (1 + q) < a := by rw [div_lt_iff₀ h1]; nlinarith
  have hc : a / (1 + q) < a := by rw [div_lt_iff₀ h1]; nlinarith
  have hd : q * a / (1 + q) < a := by rw [div_lt_iff₀ h1]; nlinarith
  unfold isoSelect
  simp only []
  rw [if_neg (by linarith), if_neg (fun h => by linarith [h.2.1]), if_neg (fun h => by linarith [h.1]),
    if_neg (fun h => by linarith [h.2]), if_neg (fun h => by linarith [h.2.1]), if_neg (fun h => by linarith [h.2.2]),
    if_pos hx]

/-- **C61.** Zero at and beyond the largest possible effective spin. -/
theorem C61_support (Di : ℝ → ℝ) (depth : ℕ) {χ q a : ℝ} (hq : 0 < q) (ha : 0 < a) (hx : a ≤ |χ|) :
    isotropicPrior Di (depth + 1) χ q a = .ok (F.fin 0) := by
  simp only [isotropicPrior, isoSelect_F Di hq ha hx]

/-- the points where no case applies are among the three break points -/
theorem isoSelect_none (Di : ℝ → ℝ) {x q a : ℝ} (hq : 0 < q) (hq1 : q ≤ 1) (ha : 0 < a) (hx : 0 ≤ x)
    (h : isoSelect Di x q a = none) : x = a * (1 - q) / (1 + q) ∨ x = a / (1 + q) ∨ x = q * a / (1 + q) := by
  unfold isoSelect at h
  simp only [] at h
  by_contra hc
  push Not at hc
  obtain ⟨c1, c2, c3⟩ := hc
  have h1 : 0 < 1 + q := by linarith
  have hle : q * a / (1 + q) ≤ a / (1 + q) := div_le_div_of_nonneg_right (by nlinarith) h1.le
  split_ifs at h with hZ hA hB hC hD hE hF
  have hx0 : 0 < x := lt_of_le_of_ne hx (Ne.symm hZ)
  rcases lt_or_gt_of_ne c1 with k1 | k1
  · rcases lt_or_gt_of_ne c3 with k3 | k3
    · exact hA ⟨hx0, k1, k3⟩
    · exact hB ⟨k1, k3⟩
  · rcases lt_or_gt_of_ne c2 with k2 | k2
    · rcases lt_or_ge x (q * a / (1 + q)) with k3 | k3
      · exact hC ⟨k1, k3⟩
      · exact hD ⟨k1, k2, k3⟩
    · rcases lt_or_ge x a with k4 | k4
      · exact hE ⟨k1, k2, k4⟩
      · exact hF k4

/-- **C61 (partial).** Whenever shifting a break point by `1e-6` does not hit a break point, evaluation finishes with at most
two nested calls, for every `χ_eff`.  Missing: the parameter values where it does hit one (`C61_recursion_fails`). -/
theorem C61_terminates_partial (Di : ℝ → ℝ) {q a : ℝ} (hq : 0 < q) (hq1 : q ≤ 1) (ha : 0 < a)
    (hsep : ∀ b ∈ [a * (1 - q) / (1 + q), a / (1 + q), q * a / (1 + q)],
      ∀ b' ∈ [a * (1 - q) / (1 + q), a / (1 + q), q * a / (1 + q)], b + 1e-6 ≠ b' ∧ |b - 1e-6| ≠ b')
    (χ : ℝ) (depth : ℕ) : ∃ v, isotropicPrior Di (depth + 2) χ q a = .ok v := by
  have one : ∀ y : ℝ, isoSelect Di |y| q a ≠ none → ∃ v, isotropicPrior Di (depth + 1) y q a = .ok v := by
    intro y hy
    cases h : isoSelect Di |y| q a with
    | none => exact absurd h hy
    | some v => exact ⟨v, by simp only [isotropicPrior, h]⟩
  cases h : isoSelect Di |χ| q a with
  | some v => exact ⟨v, by simp only [isotropicPrior, h]⟩
  | none =>
    have hb := isoSelect_none Di hq hq1 ha (abs_nonneg χ) h
    have hmem : |χ| ∈ [a * (1 - q) / (1 + q), a / (1 + q), q * a / (1 + q)] := by simpa using hb
    have hs := hsep _ hmem
    obtain ⟨p, hp⟩ := one (|χ| + 1e-6) (by
      intro hc
      have := isoSelect_none Di hq hq1 ha (abs_nonneg _) hc
      rw [abs_of_nonneg (by have := abs_nonneg χ; norm_num; linarith)] at this
      exact (hs _ (by simpa using this)).1 rfl)
    obtain ⟨m, hm⟩ := one (|χ| - 1e-6) (by
      intro hc
      have := isoSelect_none Di hq hq1 ha (abs_nonneg _) hc
      exact (hs _ (by simpa using this)).2 rfl)
    refine ⟨F.fin 0.5 * (p + m), ?_⟩
    rw [isotropicPrior]
    simp only [h, hp, hm]

theorem isoSelect_b1 (Di : ℝ → ℝ) {q a : ℝ} (hq : 0 < q) (hq1 : q < 1) (ha : 0 < a) :
    isoSelect Di (a * (1 - q) / (1 + q)) q a = none := by
  have h1 : 0 < 1 + q := by linarith
  have hb : a * (1 - q) / (1 + q) < a := by rw [div_lt_iff₀ h1]; nlinarith
  have hp : 0 < a * (1 - q) / (1 + q) := div_pos (mul_pos ha (by linarith)) h1
  unfold isoSelect
  simp only []
  rw [if_neg hp.ne', if_neg (fun h => lt_irrefl _ h.2.1), if_neg (fun h => lt_irrefl _ h.1),
    if_neg (fun h => lt_irrefl _ h.1), if_neg (fun h => lt_irrefl _ h.1), if_neg (fun h => lt_irrefl _ h.1),
    if_neg (not_le.2 hb)]

theorem isoSelect_b2 (Di : ℝ → ℝ) {q a : ℝ} (hq : 0 < q) (hq1 : q < 1) (ha : 0 < a) :
    isoSelect Di (a / (1 + q)) q a = none := by
  have h1 : 0 < 1 + q := by linarith
  have hb : a * (1 - q) / (1 + q) < a / (1 + q) := div_lt_div_of_pos_right (by nlinarith) h1
  have hc : a / (1 + q) < a := by rw [div_lt_iff₀ h1]; nlinarith
  have hd : q * a / (1 + q) < a / (1 + q) := div_lt_div_of_pos_right (by nlinarith) h1
  have hp : 0 < a / (1 + q) := div_pos ha h1
  unfold isoSelect
  simp only []
  rw [if_neg hp.ne', if_neg (fun h => by linarith [h.2.1]), if_neg (fun h => by linarith [h.1]),
    if_neg (fun h => by linarith [h.2]), if_neg (fun h => lt_irrefl _ h.2.1), if_neg (fun h => lt_irrefl _ h.2.1),
    if_neg (not_le.2 hc)]

/-- **C61 is false of the code.** When `q·a/(1+q)` is exactly the shift `1e-6`, two break points are one shift apart and the
evaluation at either of them recurses forever: it fails for every recursion limit. -/
theorem C61_recursion_fails (Di : ℝ → ℝ) {q a : ℝ} (hq : 0 < q) (hq1 : q < 1) (ha : 0 < a) (h : q * a / (1 + q) = 1e-6)
    (depth : ℕ) : isotropicPrior Di depth (a * (1 - q) / (1 + q)) q a = .error .recursionError ∧
      isotropicPrior Di depth (a / (1 + q)) q a = .error .recursionError := by
  have h1 : 0 < 1 + q := by linarith
  have hp1 : 0 < a * (1 - q) / (1 + q) := div_pos (mul_pos ha (by linarith)) h1
  have hp2 : 0 < a / (1 + q) := div_pos ha h1
  have hd : a / (1 + q) = a * (1 - q) / (1 + q) + 1e-6 := by rw [← h]; field_simp; ring
  have hd' : a / (1 + q) + 1e-6 = a := by rw [← h]; field_simp
  induction depth with
  | zero => exact ⟨rfl, rfl⟩
  | succ d ih =>
    constructor
    · simp only [isotropicPrior, abs_of_pos hp1, isoSelect_b1 Di hq hq1 ha]
      rw [← hd, ih.2]
    · simp only [isotropicPrior, abs_of_pos hp2, isoSelect_b2 Di hq hq1 ha]
      rw [hd', show a / (1 + q) - 1e-6 = a * (1 - q) / (1 + q) by rw [hd]; ring, ih.1]
      cases d with
      | zero => rfl
      | succ d => rw [C61_support Di d hq ha (le_abs_self a)]

example : ∃ q a : ℝ, 0 < q ∧ q < 1 ∧ 0 < a ∧ q * a / (1 + q) = 1e-6 :=
  ⟨1 / 999999, 1, by norm_num, by norm_num, by norm_num, by norm_num⟩
example : ∀ b ∈ [1 * (1 - (0.5 : ℝ)) / (1 + 0.5), 1 / (1 + 0.5), 0.5 * 1 / (1 + 0.5)],
      ∀ b' ∈ [1 * (1 - (0.5 : ℝ)) / (1 + 0.5), 1 / (1 + 0.5), 0.5 * 1 / (1 + 0.5)], b + 1e-6 ≠ b' ∧ |b - 1e-6| ≠ b' := by
  intro b hb b' hb'
  simp only [List.mem_cons, List.not_mem_nil, or_false] at hb hb'
  rcases hb with rfl | rfl | rfl <;> rcases hb' with rfl | rfl | rfl <;> constructor <;>
    first | norm_num | (rw [abs_of_nonneg (by norm_num)]; norm_num)

end GW
end
