import Verif.Lemmas.BSpline
import Mathlib.MeasureTheory.Integral.IntervalIntegral.Basic
import Mathlib.Analysis.SpecialFunctions.Integrals.Basic

/-! # Property C07: every M-spline component has unit area -/

open MeasureTheory Set
noncomputable section
open Classical
namespace GW

/-- complete homogeneous symmetric polynomial of degree `r` in `t i, …, t (i+m)` -/
def chom (t : ℕ → ℝ) (i : ℕ) : ℕ → ℕ → ℝ
  | 0, _ => 1
  | r + 1, 0 => t i ^ (r + 1)
  | r + 1, m + 1 => chom t i (r + 1) m + t (i + (m + 1)) * chom t i r (m + 1)

theorem chom_zero_right (t : ℕ → ℝ) (i r : ℕ) : chom t i r 0 = t i ^ r := by
  cases r <;> simp [chom]

theorem chom_zero (t : ℕ → ℝ) (i m : ℕ) : chom t i 0 m = 1 := by simp [chom]

/-- expansion in the first variable -/
theorem chom_left (t : ℕ → ℝ) (i m r : ℕ) :
    chom t i (r + 1) (m + 1) = chom t (i + 1) (r + 1) m + t i * chom t i r (m + 1) := by
  induction m generalizing r with
  | zero =>
    induction r with
    | zero => simp [chom]; ring
    | succ r ih =>
      have e1 : chom t i (r + 2) 1 = t i ^ (r + 2) + t (i + 1) * chom t i (r + 1) 1 := by simp [chom]
      have e2 : chom t i (r + 1) 1 = t i ^ (r + 1) + t (i + 1) * chom t i r 1 := by simp [chom]
      have e3 : chom t (i + 1) (r + 2) 0 = t (i + 1) ^ (r + 2) := by simp [chom]
      have e4 : chom t (i + 1) (r + 1) 0 = t (i + 1) ^ (r + 1) := by simp [chom]
      show chom t i (r + 2) 1 = chom t (i + 1) (r + 2) 0 + t i * chom t i (r + 1) 1
      have ih' : chom t i (r + 1) 1 = chom t (i + 1) (r + 1) 0 + t i * chom t i r 1 := ih
      rw [e4] at ih'
      rw [e1, e3]
      have : t i ^ (r + 2) + t (i + 1) * (t (i + 1) ^ (r + 1) + t i * chom t i r 1)
          = t (i + 1) ^ (r + 2) + t i * (t i ^ (r + 1) + t (i + 1) * chom t i r 1) := by ring
      rw [← ih', ← e2] at this
      exact this
  | succ m ih =>
    induction r with
    | zero =>
      have h := ih 0
      simp only [chom] at h ⊢
      have e : i + 1 + (m + 1) = i + (m + 1 + 1) := by omega
      rw [e]; linarith
    | succ r ihr =>
      have e1 : chom t i (r + 2) (m + 2) = chom t i (r + 2) (m + 1) + t (i + (m + 2)) * chom t i (r + 1) (m + 2) := by
        simp [chom]
      have e2 : chom t i (r + 1) (m + 2) = chom t i (r + 1) (m + 1) + t (i + (m + 2)) * chom t i r (m + 2) := by
        simp [chom]
      have e3 : chom t (i + 1) (r + 2) (m + 1)
          = chom t (i + 1) (r + 2) m + t (i + (m + 2)) * chom t (i + 1) (r + 1) (m + 1) := by
        simp only [chom]; rw [show i + 1 + (m + 1) = i + (m + 2) by omega]
      show chom t i (r + 2) (m + 2) = chom t (i + 1) (r + 2) (m + 1) + t i * chom t i (r + 1) (m + 2)
      have a1 := ih (r + 1)
      have a2 : chom t i (r + 1) (m + 2) = chom t (i + 1) (r + 1) (m + 1) + t i * chom t i r (m + 2) := ihr
      have a1' : chom t i (r + 2) (m + 1) = chom t (i + 1) (r + 2) m + t i * chom t i (r + 1) (m + 1) := a1
      rw [e1, e3, a1']
      have : t (i + (m + 2)) * chom t i (r + 1) (m + 2)
          = t (i + (m + 2)) * chom t (i + 1) (r + 1) (m + 1) + t i * (t (i + (m + 2)) * chom t i r (m + 2)) := by
        rw [a2]; ring
      rw [this]
      have h3 : t i * chom t i (r + 1) (m + 2) = t i * chom t i (r + 1) (m + 1) + t i * (t (i + (m + 2)) * chom t i r (m + 2)) := by
        rw [e2]; ring
      rw [h3]; ring

theorem chom_right (t : ℕ → ℝ) (i m r : ℕ) :
    chom t i (r + 1) (m + 1) = chom t i (r + 1) m + t (i + (m + 1)) * chom t i r (m + 1) := by simp [chom]

/-- all knots equal -/
theorem chom_const {t : ℕ → ℝ} {i m : ℕ} {a : ℝ} (h : ∀ j ≤ m, t (i + j) = a) (r : ℕ) :
    chom t i r m = ((m + r).choose r : ℝ) * a ^ r := by
  induction m generalizing r with
  | zero =>
    have := h 0 (le_refl _)
    rw [chom_zero_right, show i = i + 0 by rfl, this]; simp
  | succ m ih =>
    induction r with
    | zero => simp [chom]
    | succ r ihr =>
      rw [chom_right, ih (fun j hj => h j (by omega)), ihr, h (m + 1) (le_refl _)]
      have : ((m + 1 + (r + 1)).choose (r + 1) : ℝ) = ((m + 1 + r).choose r : ℝ) + ((m + (r + 1)).choose (r + 1) : ℝ) := by
        rw [show m + 1 + (r + 1) = (m + 1 + r) + 1 by ring, Nat.choose_succ_succ, show m + 1 + r = m + (r + 1) by ring]
        push_cast; ring
      rw [this]; ring

/-- Knots `t i, …, t (i+k)` are non-decreasing and distinct values are at least the degeneracy threshold apart. -/
def GapsOK (t : ℕ → ℝ) (i k : ℕ) : Prop :=
  ∀ a b, i ≤ a → a < b → b ≤ i + k → t b = t a ∨ knotEps ≤ t b - t a

theorem GapsOK.left {t : ℕ → ℝ} {i k : ℕ} (h : GapsOK t i (k + 1)) : GapsOK t i k :=
  fun a b ha hab hb => h a b ha hab (by omega)
theorem GapsOK.right {t : ℕ → ℝ} {i k : ℕ} (h : GapsOK t i (k + 1)) : GapsOK t (i + 1) k :=
  fun a b ha hab hb => h a b (by omega) hab (by omega)

theorem GapsOK.const {t : ℕ → ℝ} {i k : ℕ} (h : GapsOK t i k) (he : t (i + k) = t i) : ∀ j ≤ k, t (i + j) = t i := by
  have heps : (0:ℝ) < knotEps := by norm_num [knotEps]
  have mono : ∀ a b, i ≤ a → a < b → b ≤ i + k → t a ≤ t b := by
    intro a b ha hab hb
    rcases h a b ha hab hb with h1 | h1
    · exact h1.ge
    · linarith
  intro j hj
  rcases Nat.eq_zero_or_pos j with rfl | hj0
  · rfl
  have h1 := mono i (i + j) (le_refl _) (by omega) (by omega)
  rcases hj.eq_or_lt with rfl | hj'
  · exact he
  have h2 := mono (i + j) (i + k) (by omega) (by omega) (le_refl _)
  linarith

theorem basis_degenerate (t : ℕ → ℝ) (x : ℝ) (k i : ℕ) (h : t (i + k) = t i) : basis t x k i = 0 := by
  have heps : (0:ℝ) < knotEps := by norm_num [knotEps]
  match k with
  | 0 => rfl
  | 1 => simp only [basis]; rw [if_pos (by rw [h, sub_self]; exact heps)]
  | k + 2 => simp only [basis]; rw [if_pos (by rw [h, sub_self]; exact heps)]

/-- weighted moments; the degenerate case is the point mass convention -/
theorem moment (t : ℕ → ℝ) (k : ℕ) : ∀ i, GapsOK t i (k + 1) → ∀ r : ℕ,
    Integrable (fun x => x ^ r * basis t x (k + 1) i) ∧
    (t (i + (k + 1)) ≠ t i → ∫ x, x ^ r * basis t x (k + 1) i = chom t i r (k + 1) / ((k + 1 + r).choose r : ℝ)) := by
  have heps : (0:ℝ) < knotEps := by norm_num [knotEps]
  induction k with
  | zero =>
    intro i h r
    rcases h i (i + 1) (le_refl _) (by omega) (by omega) with he | hg
    · have : (fun x => x ^ r * basis t x (0 + 1) i) = fun _ => 0 := by
        funext x; rw [basis_degenerate t x _ i he, mul_zero]
      rw [this]
      exact ⟨integrable_zero _ _ _, fun hc => absurd he hc⟩
    · have hlt : t i < t (i + 1) := by linarith
      have e : (fun x => x ^ r * basis t x (0 + 1) i) = (Ico (t i) (t (i + 1))).indicator (fun x => x ^ r / (t (i + 1) - t i)) := by
        funext x
        simp only [basis, indicator, mem_Ico]
        rw [if_neg (not_lt.2 hg)]
        split_ifs
        · ring
        · ring
      rw [e]
      constructor
      · rw [integrable_indicator_iff measurableSet_Ico]
        exact (ContinuousOn.integrableOn_Icc (by fun_prop)).mono_set Ico_subset_Icc_self
      · intro _
        rw [integral_indicator measurableSet_Ico, integral_Ico_eq_integral_Ioc, ← intervalIntegral.integral_of_le hlt.le,
          intervalIntegral.integral_div, integral_pow]
        have h1 : t (i + 1) - t i ≠ 0 := by linarith
        have hc : ((0 + 1 + r).choose r : ℝ) = r + 1 := by
          rw [show 0 + 1 + r = r + 1 by ring, Nat.choose_succ_self_right]; push_cast; ring
        rw [hc]
        have hr : ((r : ℝ) + 1) ≠ 0 := by positivity
        have key : t (i + 1) ^ (r + 1) - t i ^ (r + 1) = (t (i + 1) - t i) * chom t i r (0 + 1) := by
          have a := chom_left t i 0 r
          rw [chom_right, chom_zero_right, chom_zero_right] at a
          simp only [zero_add] at a ⊢
          linarith
        rw [key]; field_simp
  | succ k ih =>
    intro i h r
    have hL := ih i h.left
    have hR := ih (i + 1) h.right
    rcases h i (i + (k + 2)) (le_refl _) (by omega) (by omega) with he | hg
    · have : (fun x => x ^ r * basis t x (k + 1 + 1) i) = fun _ => 0 := by
        funext x; rw [basis_degenerate t x _ i he, mul_zero]
      rw [this]
      exact ⟨integrable_zero _ _ _, fun hc => absurd he hc⟩
    · have hgap : t (i + (k + 2)) - t i ≠ 0 := by linarith
      set g := t (i + (k + 2)) - t i with hgdef
      have e : (fun x => x ^ r * basis t x (k + 1 + 1) i) = fun x =>
          (((x ^ (r + 1) * basis t x (k + 1) i - t i * (x ^ r * basis t x (k + 1) i))
            + (t (i + (k + 2)) * (x ^ r * basis t x (k + 1) (i + 1)) - x ^ (r + 1) * basis t x (k + 1) (i + 1)))
            * (((k : ℝ) + 2) / (((k : ℝ) + 1) * g))) := by
        funext x
        have : basis t x (k + 1 + 1) i = ((x - t i) * basis t x (k + 1) i + (t (i + (k + 2)) - x) * basis t x (k + 1) (i + 1)) * ((k : ℝ) + 2)
            / (((k : ℝ) + 1) * (t (i + (k + 2)) - t i)) := by
          simp only [basis]; rw [if_neg (not_lt.2 hg)]
        rw [this]; ring
      have iL1 := (hL (r + 1)).1
      have iL0 := (hL r).1.const_mul (t i)
      have iR1 := (hR (r + 1)).1
      have iR0 := (hR r).1.const_mul (t (i + (k + 2)))
      rw [e]
      refine ⟨((iL1.sub iL0).add (iR0.sub iR1)).mul_const _, fun _ => ?_⟩
      have i1 : ∫ x, ((x ^ (r + 1) * basis t x (k + 1) i - t i * (x ^ r * basis t x (k + 1) i))
            + (t (i + (k + 2)) * (x ^ r * basis t x (k + 1) (i + 1)) - x ^ (r + 1) * basis t x (k + 1) (i + 1)))
            * (((k : ℝ) + 2) / (((k : ℝ) + 1) * g))
          = (((∫ x, x ^ (r + 1) * basis t x (k + 1) i) - t i * ∫ x, x ^ r * basis t x (k + 1) i)
            + ((t (i + (k + 2)) * ∫ x, x ^ r * basis t x (k + 1) (i + 1)) - ∫ x, x ^ (r + 1) * basis t x (k + 1) (i + 1)))
            * (((k : ℝ) + 2) / (((k : ℝ) + 1) * g)) := by
        have hA : Integrable (fun x => x ^ (r + 1) * basis t x (k + 1) i - t i * (x ^ r * basis t x (k + 1) i)) :=
          iL1.sub iL0
        have hB : Integrable (fun x => t (i + (k + 2)) * (x ^ r * basis t x (k + 1) (i + 1))
            - x ^ (r + 1) * basis t x (k + 1) (i + 1)) := iR0.sub iR1
        rw [integral_mul_const, integral_add hA hB, integral_sub iL1 iL0, integral_sub iR0 iR1,
          integral_const_mul, integral_const_mul]
      rw [i1]
      -- binomial bookkeeping
      set c0 : ℝ := ((k + 1 + r).choose r : ℝ) with hc0
      set c1 : ℝ := ((k + 1 + (r + 1)).choose (r + 1) : ℝ) with hc1
      set c2 : ℝ := ((k + 1 + 1 + r).choose r : ℝ) with hc2
      have c0pos : 0 < c0 := by rw [hc0]; exact_mod_cast Nat.choose_pos (by omega)
      have c1pos : 0 < c1 := by rw [hc1]; exact_mod_cast Nat.choose_pos (by omega)
      have c2pos : 0 < c2 := by rw [hc2]; exact_mod_cast Nat.choose_pos (by omega)
      have b1 : ((r : ℝ) + 1) * c1 = ((k : ℝ) + 2 + r) * c0 := by
        have := Nat.add_one_mul_choose_eq (k + 1 + r) r
        have h2 : ((k + 1 + r + 1 : ℕ) : ℝ) * ((k + 1 + r).choose r : ℝ) = ((k + 1 + r + 1).choose (r + 1) : ℝ) * ((r + 1 : ℕ) : ℝ) := by
          exact_mod_cast this
        rw [hc0, hc1, show k + 1 + (r + 1) = k + 1 + r + 1 by ring]
        push_cast at h2 ⊢; linarith
      have b2 : ((k : ℝ) + 2) * c2 = ((k : ℝ) + 2 + r) * c0 := by
        have := Nat.add_one_mul_choose_eq (k + 1 + r) (k + 1)
        have h2 : ((k + 1 + r + 1 : ℕ) : ℝ) * ((k + 1 + r).choose (k + 1) : ℝ) = ((k + 1 + r + 1).choose (k + 1 + 1) : ℝ) * ((k + 1 + 1 : ℕ) : ℝ) := by
          exact_mod_cast this
        have s1 : (k + 1 + r).choose (k + 1) = (k + 1 + r).choose r := by
          rw [← Nat.choose_symm_of_eq_add (show k + 1 + r = r + (k + 1) by ring)]
        have s2 : (k + 1 + r + 1).choose (k + 1 + 1) = (k + 1 + 1 + r).choose r := by
          rw [show k + 1 + r + 1 = k + 1 + 1 + r by ring]
          rw [← Nat.choose_symm_of_eq_add (show k + 1 + 1 + r = r + (k + 1 + 1) by ring)]
        rw [s1, s2] at h2
        rw [hc0, hc2]; push_cast at h2 ⊢; linarith
      -- left and right contributions
      have left : (∫ x, x ^ (r + 1) * basis t x (k + 1) i) - t i * ∫ x, x ^ r * basis t x (k + 1) i
          = chom t i (r + 1) (k + 1) / c1 - t i * (chom t i r (k + 1) / c0) := by
        by_cases hd : t (i + (k + 1)) = t i
        · have hz : ∀ r : ℕ, ∫ x, x ^ r * basis t x (k + 1) i = 0 := by
            intro r
            simp only [basis_degenerate t _ _ i hd, mul_zero, integral_zero]
          have hc := h.left.const hd
          rw [hz, hz, chom_const hc, chom_const hc, ← hc0, ← hc1]
          field_simp
          ring
        · rw [(hL (r + 1)).2 hd, (hL r).2 hd]
      have right : (t (i + (k + 2)) * ∫ x, x ^ r * basis t x (k + 1) (i + 1)) - ∫ x, x ^ (r + 1) * basis t x (k + 1) (i + 1)
          = t (i + (k + 2)) * (chom t (i + 1) r (k + 1) / c0) - chom t (i + 1) (r + 1) (k + 1) / c1 := by
        have e2 : i + 1 + (k + 1) = i + (k + 2) := by ring
        by_cases hd : t (i + 1 + (k + 1)) = t (i + 1)
        · have hz : ∀ r : ℕ, ∫ x, x ^ r * basis t x (k + 1) (i + 1) = 0 := by
            intro r
            simp only [basis_degenerate t _ _ (i + 1) hd, mul_zero, integral_zero]
          have hc := h.right.const hd
          rw [hz, hz, chom_const hc, chom_const hc, ← hc0, ← hc1, ← e2, hd]
          field_simp
          ring
        · rw [(hR (r + 1)).2 hd, (hR r).2 hd]
      rw [left, right]
      have id1 : chom t i (r + 1) (k + 1) - chom t (i + 1) (r + 1) (k + 1) = -g * chom t i r (k + 2) := by
        have a := chom_left t i (k + 1) r
        have b := chom_right t i (k + 1) r
        rw [b] at a
        have e3 : i + (k + 1 + 1) = i + (k + 2) := by ring
        rw [e3] at a
        rw [hgdef]
        have a' : chom t i (r + 1) (k + 1) + t (i + (k + 2)) * chom t i r (k + 2)
            = chom t (i + 1) (r + 1) (k + 1) + t i * chom t i r (k + 2) := a
        linarith
      have id2 : t (i + (k + 2)) * chom t (i + 1) r (k + 1) - t i * chom t i r (k + 1) = g * chom t i r (k + 2) := by
        have a := chom_left t i k r
        have b := chom_right t (i + 1) k r
        have e3 : i + 1 + (k + 1) = i + (k + 2) := by ring
        rw [e3] at b
        linarith
      have fin : chom t i (r + 1) (k + 1) / c1 - t i * (chom t i r (k + 1) / c0)
          + (t (i + (k + 2)) * (chom t (i + 1) r (k + 1) / c0) - chom t (i + 1) (r + 1) (k + 1) / c1)
          = g * chom t i r (k + 2) * (1 / c0 - 1 / c1) := by
        have : chom t i (r + 1) (k + 1) / c1 - t i * (chom t i r (k + 1) / c0)
          + (t (i + (k + 2)) * (chom t (i + 1) r (k + 1) / c0) - chom t (i + 1) (r + 1) (k + 1) / c1)
          = (chom t i (r + 1) (k + 1) - chom t (i + 1) (r + 1) (k + 1)) / c1
            + (t (i + (k + 2)) * chom t (i + 1) r (k + 1) - t i * chom t i r (k + 1)) / c0 := by ring
        rw [this, id1, id2]; ring
      rw [fin]
      show _ = chom t i r (k + 2) / c2
      have hk1 : ((k : ℝ) + 1) ≠ 0 := by positivity
      have hk2 : ((k : ℝ) + 2) ≠ 0 := by positivity
      have b3 : (1 / c0 - 1 / c1) * (((k : ℝ) + 2) / ((k : ℝ) + 1)) = 1 / c2 := by
        have hc2' : c2 = ((k : ℝ) + 2 + r) * c0 / ((k : ℝ) + 2) := by rw [← b2]; field_simp
        have hr1 : ((r : ℝ) + 1) ≠ 0 := by positivity
        have hc1' : c1 = ((k : ℝ) + 2 + r) * c0 / ((r : ℝ) + 1) := by rw [← b1]; field_simp
        have hkr : ((k : ℝ) + 2 + r) ≠ 0 := by positivity
        rw [hc2', hc1']
        field_simp
        ring
      calc g * chom t i r (k + 2) * (1 / c0 - 1 / c1) * (((k : ℝ) + 2) / (((k : ℝ) + 1) * g))
          = chom t i r (k + 2) * ((1 / c0 - 1 / c1) * (((k : ℝ) + 2) / ((k : ℝ) + 1))) := by
            field_simp
        _ = chom t i r (k + 2) / c2 := by rw [b3]; ring

/-- **C07.** Every M-spline component of order `k ≥ 1` whose knot span is not degenerate is integrable over the real
line with integral exactly 1; knots may repeat (clamped ends), distinct knots being at least the threshold apart. -/
theorem C07_unit_area (t : ℕ → ℝ) (k i : ℕ) (hk : 1 ≤ k) (h : GapsOK t i k) (hne : t (i + k) ≠ t i) :
    Integrable (fun x => basis t x k i) ∧ ∫ x, basis t x k i = 1 := by
  obtain ⟨k, rfl⟩ : ∃ m, k = m + 1 := ⟨k - 1, by omega⟩
  have := moment t k i h 0
  simp only [pow_zero, one_mul] at this
  refine ⟨this.1, ?_⟩
  rw [this.2 hne]; simp [chom]

/-- **C07** (mean). The centre of mass of the component is the average of its `k+1` knots. -/
theorem C07_centre_of_mass (t : ℕ → ℝ) (k i : ℕ) (hk : 1 ≤ k) (h : GapsOK t i k) (hne : t (i + k) ≠ t i) :
    ∫ x, x * basis t x k i = (∑ j ∈ Finset.range (k + 1), t (i + j)) / (k + 1) := by
  obtain ⟨k, rfl⟩ : ∃ m, k = m + 1 := ⟨k - 1, by omega⟩
  have := (moment t k i h 1).2 hne
  simp only [pow_one] at this
  rw [this]
  have hs : ∀ m, chom t i 1 m = ∑ j ∈ Finset.range (m + 1), t (i + j) := by
    intro m
    induction m with
    | zero => simp [chom]
    | succ m ih => rw [chom_right, ih, Finset.sum_range_succ _ (m + 1), chom_zero]; ring
  rw [hs]
  congr 1
  rw [Nat.choose_one_right]; push_cast; ring

/-- **C07 fails** below the threshold: a component whose whole knot span is positive but shorter than 1e-6 is
identically zero, so its area is 0. -/
theorem C07_tiny_span_fails (t : ℕ → ℝ) (k i : ℕ) (hk : 1 ≤ k) (_h0 : t i < t (i + k)) (h1 : t (i + k) - t i < 1 / 1000000) :
    ∫ x, basis t x k i ≠ 1 := by
  have : ∀ x, basis t x k i = 0 := by
    intro x
    match k, hk with
    | 1, _ => simp only [basis]; rw [if_pos (by simpa [knotEps] using h1)]
    | k + 2, _ => simp only [basis]; rw [if_pos (by simpa [knotEps] using h1)]
  simp [this]

example : ∃ t : ℕ → ℝ, t 0 < t (0 + 4) ∧ t (0 + 4) - t 0 < 1 / 1000000 := ⟨fun j => j * (1 / 10000000), by norm_num⟩

/-- clamped cubic knots meet the hypotheses -/
example : GapsOK (fun j => if j < 4 then 0 else 1) 0 4 ∧ ((if 0 + 4 < 4 then 0 else 1 : ℝ) ≠ (if (0:ℕ) < 4 then 0 else 1)) := by
  refine ⟨?_, by norm_num⟩
  intro a b _ hab _
  by_cases h1 : b < 4
  · left; simp [h1, show a < 4 by omega]
  · by_cases h2 : a < 4
    · right; simp [h1, h2, knotEps]; norm_num
    · left; simp [h1, h2]

end GW
end
