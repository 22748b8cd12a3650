import Verif.Props.SpinPriors
import Verif.Lemmas.InterpIntegral

/-!
# C61 (scaling), C62, C63
-/

noncomputable section
open Classical MeasureTheory
namespace GW

/-! ## C61: scaling with the maximal spin -/

theorem log_scale {c y : ℝ} (hc : 0 < c) (hy : 0 < y) : Real.log (c * y) = Real.log c + Real.log y :=
  Real.log_mul hc.ne' hy.ne'

theorem isoA_scale (Di : ℝ → ℝ) {c x q a : ℝ} (hc : 0 < c) (hq : 0 < q) (ha : 0 < a) (hx : 0 < x)
    (h : (1 + q) * x < q * a) : isoA Di (c * x) q (c * a) = isoA Di x q a / c := by
  unfold isoA
  have h1 : 0 < 1 + q := by linarith
  have e1 : q ^ 2 * (c * a) ^ 2 - (1 + q) ^ 2 * (c * x) ^ 2 = c * (c * (q ^ 2 * a ^ 2 - (1 + q) ^ 2 * x ^ 2)) := by ring
  have hp : 0 < q ^ 2 * a ^ 2 - (1 + q) ^ 2 * x ^ 2 := by
    have : 0 < (1 + q) * x := by positivity
    nlinarith
  have e2 : (1 + q) * (c * x) / (q * (c * a)) = (1 + q) * x / (q * a) := by field_simp
  have e3 : -q * (c * a) / ((1 + q) * (c * x)) = -q * a / ((1 + q) * x) := by field_simp
  have e4 : q * (c * a) / ((1 + q) * (c * x)) = q * a / ((1 + q) * x) := by field_simp
  rw [e1, e2, e3, e4, log_scale hc (y := c * (q ^ 2 * a ^ 2 - (1 + q) ^ 2 * x ^ 2)) (by positivity), log_scale hc hp, log_scale hc ha]
  field_simp; ring

theorem isoB_scale (Di : ℝ → ℝ) {c x q a : ℝ} (hc : 0 < c) (hq : 0 < q) (ha : 0 < a) (hx : 0 < x)
    (h : q * a < (1 + q) * x) : isoB Di (c * x) q (c * a) = isoB Di x q a / c := by
  unfold isoB
  have h1 : 0 < 1 + q := by linarith
  have e1 : (1 + q) ^ 2 * (c * x) ^ 2 - q ^ 2 * (c * a) ^ 2 = c * (c * ((1 + q) ^ 2 * x ^ 2 - q ^ 2 * a ^ 2)) := by ring
  have hp : 0 < (1 + q) ^ 2 * x ^ 2 - q ^ 2 * a ^ 2 := by
    have : 0 < q * a := by positivity
    nlinarith
  have e2 : q * (c * a) / ((1 + q) * (c * x)) = q * a / ((1 + q) * x) := by field_simp
  have e3 : -q * (c * a) / ((1 + q) * (c * x)) = -q * a / ((1 + q) * x) := by field_simp
  rw [e1, e2, e3, log_scale hc (y := c * ((1 + q) ^ 2 * x ^ 2 - q ^ 2 * a ^ 2)) (by positivity), log_scale hc hp, log_scale hc ha]
  field_simp; ring

theorem isoC_scale (Di : ℝ → ℝ) {c x q a : ℝ} (hc : 0 < c) (hq : 0 < q) (hq1 : q ≤ 1) (ha : 0 < a) (hx : 0 < x)
    (h : (1 + q) * x < q * a) : isoC Di (c * x) q (c * a) = isoC Di x q a / c := by
  unfold isoC
  have h1 : 0 < 1 + q := by linarith
  have h2 : 0 < a - (1 + q) * x := by nlinarith
  have h3 : 0 < q * a - (1 + q) * x := by linarith
  have h4 : 0 < (1 + q) * x := by positivity
  have e1 : (1 + q) * (c * x) = c * ((1 + q) * x) := by ring
  have e2 : c * a - c * ((1 + q) * x) = c * (a - (1 + q) * x) := by ring
  have e3 : q * (c * a) - c * ((1 + q) * x) = c * (q * a - (1 + q) * x) := by ring
  have e4 : q * (c * a) / (c * (a - (1 + q) * x)) = q * a / (a - (1 + q) * x) := by field_simp
  have e5 : c * a / (c * (q * a - (1 + q) * x)) = a / (q * a - (1 + q) * x) := by field_simp
  have e6 : c * (a - (1 + q) * x) * (c * (q * a - (1 + q) * x)) / q
      = c * (c * ((a - (1 + q) * x) * (q * a - (1 + q) * x) / q)) := by ring
  have e7 : c * a / (c * ((1 + q) * x)) = a / ((1 + q) * x) := by field_simp
  have e8 : q * (c * a) / (c * ((1 + q) * x)) = q * a / ((1 + q) * x) := by field_simp
  rw [e1, e2, e3, e4, e5, e6, e7, e8, log_scale hc (y := c * ((a - (1 + q) * x) * (q * a - (1 + q) * x) / q)) (by positivity),
    log_scale hc (y := (a - (1 + q) * x) * (q * a - (1 + q) * x) / q) (by positivity), log_scale hc ha, log_scale hc h4,
    log_scale hc h2, Real.log_div (x := q * a) (by positivity) h2.ne', Real.log_mul hq.ne' ha.ne']
  field_simp; ring

/-- the value of `isoD` where it is finite -/
def isoDr (Di : ℝ → ℝ) (x q a : ℝ) : ℝ :=
  (1 + q) / (4 * q * a ^ 2) *
    (-x * Real.log a ^ 2
      + 2 * (1 + q) * (a - x)
      + q * a * Real.log (a / ((1 + q) * x - q * a))
      + a * Real.log (q * a / (a - (1 + q) * x))
      - x * Real.log a * (2 * (1 + q) - Real.log ((1 + q) * x) - q * Real.log ((1 + q) * x / a))
      + (1 + q) * x * Real.log ((-q * a + (1 + q) * x) * (a - (1 + q) * x) / q)
      + (1 + q) * x * Real.log (a / ((1 + q) * x)) * Real.log ((a - (1 + q) * x) / q)
      + (1 + q) * x * (Di (1 - a / ((1 + q) * x)) - Di (q * a / ((1 + q) * x))))

theorem isoD_eq (Di : ℝ → ℝ) {x q a : ℝ} (hq : 0 < q) (ha : 0 < a) (h : q * a < (1 + q) * x) (h' : (1 + q) * x < a) :
    isoD Di x q a = F.fin (isoDr Di x q a) := by
  have h2 : 0 < a - (1 + q) * x := by linarith
  have h3 : 0 < (1 + q) * x - q * a := by linarith
  have h4 : 0 < -q * a + (1 + q) * x := by linarith
  unfold isoD isoDr
  rw [F.div_fin h3.ne', F.log_fin (by positivity), F.log_fin (by positivity)]
  simp only [F.add_fin, F.mul_fin, F.sub_fin]

theorem isoD_edge (Di : ℝ → ℝ) {x q a : ℝ} (hq : 0 < q) (ha : 0 < a) (hx : 0 < x) (h : (1 + q) * x = q * a) :
    isoD Di x q a = F.nan := by
  have h3 : (1 + q) * x - q * a = 0 := by linarith
  have h4 : -q * a + (1 + q) * x = 0 := by linarith
  have h5 : 0 < (1 + q) * x := by positivity
  unfold isoD
  rw [h3, h4, zero_mul, zero_div, F.div_fin_zero, F.infOfSign_pos ha, F.log_pinf, F.log_zero, F.fin_mul_pinf, F.fin_mul_ninf,
    F.infOfSign_pos (by positivity), F.infOfSign_neg (by linarith)]
  simp

theorem isoDr_scale (Di : ℝ → ℝ) {c x q a : ℝ} (hc : 0 < c) (hq : 0 < q) (ha : 0 < a) (hx : 0 < x)
    (h : q * a < (1 + q) * x) (h' : (1 + q) * x < a) : isoDr Di (c * x) q (c * a) = isoDr Di x q a / c := by
  unfold isoDr
  have h1 : 0 < 1 + q := by linarith
  have h2 : 0 < a - (1 + q) * x := by linarith
  have h3 : 0 < (1 + q) * x - q * a := by linarith
  have h4 : 0 < (1 + q) * x := by positivity
  have e1 : (1 + q) * (c * x) = c * ((1 + q) * x) := by ring
  have e2 : c * a - c * ((1 + q) * x) = c * (a - (1 + q) * x) := by ring
  have e3 : c * ((1 + q) * x) - q * (c * a) = c * ((1 + q) * x - q * a) := by ring
  have e3' : -q * (c * a) + c * ((1 + q) * x) = c * ((1 + q) * x - q * a) := by ring
  have e3'' : -q * a + (1 + q) * x = (1 + q) * x - q * a := by ring
  have e4 : q * (c * a) / (c * (a - (1 + q) * x)) = q * a / (a - (1 + q) * x) := by field_simp
  have e5 : c * a / (c * ((1 + q) * x - q * a)) = a / ((1 + q) * x - q * a) := by field_simp
  have e6 : c * ((1 + q) * x - q * a) * (c * (a - (1 + q) * x)) / q
      = c * (c * (((1 + q) * x - q * a) * (a - (1 + q) * x) / q)) := by ring
  have e7 : c * a / (c * ((1 + q) * x)) = a / ((1 + q) * x) := by field_simp
  have e8 : q * (c * a) / (c * ((1 + q) * x)) = q * a / ((1 + q) * x) := by field_simp
  have e9 : c * ((1 + q) * x) / (c * a) = (1 + q) * x / a := by field_simp
  have e10 : c * (a - (1 + q) * x) / q = c * ((a - (1 + q) * x) / q) := by ring
  rw [e1, e2, e3, e3', e3'', e4, e5, e6, e7, e8, e9, e10,
    log_scale hc (y := c * (((1 + q) * x - q * a) * (a - (1 + q) * x) / q)) (by positivity),
    log_scale hc (y := ((1 + q) * x - q * a) * (a - (1 + q) * x) / q) (by positivity), log_scale hc ha, log_scale hc h4,
    log_scale hc (y := (a - (1 + q) * x) / q) (by positivity), Real.log_div ha.ne' h4.ne', Real.log_div h4.ne' ha.ne']
  field_simp; ring

theorem isoD_scale (Di : ℝ → ℝ) {c x q a : ℝ} (hc : 0 < c) (hq : 0 < q) (ha : 0 < a) (hx : 0 < x)
    (h : q * a ≤ (1 + q) * x) (h' : (1 + q) * x < a) : isoD Di (c * x) q (c * a) = isoD Di x q a / F.fin c := by
  rcases h.eq_or_lt with h | h
  · rw [isoD_edge Di hq ha hx h.symm, isoD_edge Di hq (by positivity) (by positivity) (by rw [show (1 + q) * (c * x) = c * ((1 + q) * x) by ring, ← h]; ring), F.nan_div]
  · rw [isoD_eq Di hq ha h h', isoD_eq Di hq (by positivity) (by nlinarith) (by nlinarith), isoDr_scale Di hc hq ha hx h h',
      F.div_fin hc.ne']

theorem isoE_scale (Di : ℝ → ℝ) {c x q a : ℝ} (hc : 0 < c) (hq : 0 < q) (hq1 : q ≤ 1) (ha : 0 < a) (hx : 0 < x)
    (h : a < (1 + q) * x) : isoE Di (c * x) q (c * a) = isoE Di x q a / c := by
  unfold isoE
  have h1 : 0 < 1 + q := by linarith
  have h2 : 0 < (1 + q) * x - a := by linarith
  have h3 : 0 < (1 + q) * x - q * a := by nlinarith
  have h4 : 0 < (1 + q) * x := by positivity
  have e1 : (1 + q) * (c * x) = c * ((1 + q) * x) := by ring
  have e2 : c * ((1 + q) * x) - c * a = c * ((1 + q) * x - a) := by ring
  have e3 : c * ((1 + q) * x) - q * (c * a) = c * ((1 + q) * x - q * a) := by ring
  have e4 : q * (c * a) / (c * ((1 + q) * x - a)) = q * a / ((1 + q) * x - a) := by field_simp
  have e5 : c * ((1 + q) * x - q * a) / (c * a) = ((1 + q) * x - q * a) / a := by field_simp
  have e6 : c * ((1 + q) * x - a) * (c * ((1 + q) * x - q * a)) / q
      = c * (c * (((1 + q) * x - a) * ((1 + q) * x - q * a) / q)) := by ring
  have e7 : c * a / (c * ((1 + q) * x)) = a / ((1 + q) * x) := by field_simp
  have e8 : q * (c * a) / (c * ((1 + q) * x)) = q * a / ((1 + q) * x) := by field_simp
  have e10 : c * ((1 + q) * x - a) / q = c * (((1 + q) * x - a) / q) := by ring
  rw [e1, e2, e3, e4, e5, e6, e7, e8, e10,
    log_scale hc (y := c * (((1 + q) * x - a) * ((1 + q) * x - q * a) / q)) (by positivity),
    log_scale hc (y := ((1 + q) * x - a) * ((1 + q) * x - q * a) / q) (by positivity), log_scale hc ha, log_scale hc h4,
    log_scale hc (y := ((1 + q) * x - a) / q) (by positivity),
    Real.log_div (x := q) (y := c * ((1 + q) * x - a)) hq.ne' (by positivity), log_scale hc h2,
    Real.log_div (x := q) (y := (1 + q) * x - a) hq.ne' h2.ne',
    Real.log_div (x := q * a) (by positivity) h2.ne', Real.log_mul hq.ne' ha.ne', Real.log_div h2.ne' hq.ne']
  field_simp; ring

theorem isoSelect_scale (Di : ℝ → ℝ) {c x q a : ℝ} (hc : 0 < c) (hq : 0 < q) (hq1 : q ≤ 1) (ha : 0 < a) (hx : 0 ≤ x) :
    isoSelect Di (c * x) q (c * a) = (isoSelect Di x q a).map (· / F.fin c) := by
  have h1 : 0 < 1 + q := by linarith
  have s1 : c * a * (1 - q) / (1 + q) = c * (a * (1 - q) / (1 + q)) := by ring
  have s2 : q * (c * a) / (1 + q) = c * (q * a / (1 + q)) := by ring
  have s3 : c * a / (1 + q) = c * (a / (1 + q)) := by ring
  have m : ∀ y z : ℝ, c * y < c * z ↔ y < z := fun y z => mul_lt_mul_iff_right₀ hc
  have m' : ∀ y z : ℝ, c * y ≤ c * z ↔ y ≤ z := fun y z => mul_le_mul_iff_right₀ hc
  have m0 : c * x = 0 ↔ x = 0 := by simp [hc.ne']
  have m1 : 0 < c * x ↔ 0 < x := by simp [hc]
  have hA : ∀ y, (y < q * a / (1 + q) ↔ (1 + q) * y < q * a) := fun y => by rw [lt_div_iff₀ h1, mul_comm]
  have hA' : ∀ y, (q * a / (1 + q) < y ↔ q * a < (1 + q) * y) := fun y => by rw [div_lt_iff₀ h1, mul_comm y]
  have hD : ∀ y, (q * a / (1 + q) ≤ y ↔ q * a ≤ (1 + q) * y) := fun y => by rw [div_le_iff₀ h1, mul_comm y]
  have hE : ∀ y, (a / (1 + q) < y ↔ a < (1 + q) * y) := fun y => by rw [div_lt_iff₀ h1, mul_comm y]
  have hE' : ∀ y, (y < a / (1 + q) ↔ (1 + q) * y < a) := fun y => by rw [lt_div_iff₀ h1, mul_comm y]
  unfold isoSelect
  simp only [s1, s2, s3, gt_iff_lt, ge_iff_le, m, m', m0, m1]
  by_cases hZ : x = 0
  · rw [if_pos hZ, if_pos hZ, Option.map_some, F.div_fin hc.ne']; congr 2; unfold isoZ; field_simp
  have hx0 : 0 < x := lt_of_le_of_ne hx (Ne.symm hZ)
  rw [if_neg hZ, if_neg hZ]
  by_cases kA : 0 < x ∧ x < a * (1 - q) / (1 + q) ∧ x < q * a / (1 + q)
  · rw [if_pos kA, if_pos kA, Option.map_some, F.div_fin hc.ne', isoA_scale Di hc hq ha hx0 ((hA x).1 kA.2.2)]
  rw [if_neg kA, if_neg kA]
  by_cases kB : x < a * (1 - q) / (1 + q) ∧ q * a / (1 + q) < x
  · rw [if_pos kB, if_pos kB, Option.map_some, F.div_fin hc.ne', isoB_scale Di hc hq ha hx0 ((hA' x).1 kB.2)]
  rw [if_neg kB, if_neg kB]
  by_cases kC : a * (1 - q) / (1 + q) < x ∧ x < q * a / (1 + q)
  · rw [if_pos kC, if_pos kC, Option.map_some, F.div_fin hc.ne', isoC_scale Di hc hq hq1 ha hx0 ((hA x).1 kC.2)]
  rw [if_neg kC, if_neg kC]
  by_cases kD : a * (1 - q) / (1 + q) < x ∧ x < a / (1 + q) ∧ q * a / (1 + q) ≤ x
  · rw [if_pos kD, if_pos kD, Option.map_some]
    rw [isoD_scale Di hc hq ha hx0 ((hD x).1 kD.2.2) ((hE' x).1 kD.2.1)]
  rw [if_neg kD, if_neg kD]
  by_cases kE : a * (1 - q) / (1 + q) < x ∧ a / (1 + q) < x ∧ x < a
  · rw [if_pos kE, if_pos kE, Option.map_some, F.div_fin hc.ne', isoE_scale Di hc hq hq1 ha hx0 ((hE x).1 kE.2.1)]
  rw [if_neg kE, if_neg kE]
  by_cases kF : a ≤ x
  · rw [if_pos kF, Option.map_some, F.div_fin hc.ne', zero_div]
  · rw [if_neg kF, Option.map_none]

/-- **C61.** The density scales with the maximal spin: `p(c·χ ; c·a) = p(χ ; a)/c`, at every point that is not one of the three
break points (where the fixed `1e-6` shift does not scale). -/
theorem C61_scaling (Di : ℝ → ℝ) (depth : ℕ) {c χ q a : ℝ} (hc : 0 < c) (hq : 0 < q) (hq1 : q ≤ 1) (ha : 0 < a)
    (hb : |χ| ∉ [a * (1 - q) / (1 + q), a / (1 + q), q * a / (1 + q)]) :
    ∃ v : F, isotropicPrior Di (depth + 1) χ q a = .ok v ∧ isotropicPrior Di (depth + 1) (c * χ) q (c * a) = .ok (v / F.fin c) := by
  have hs := isoSelect_scale Di hc hq hq1 ha (abs_nonneg χ)
  rw [← abs_of_pos hc, ← abs_mul, abs_of_pos hc] at hs
  cases h : isoSelect Di |χ| q a with
  | none => exact absurd (isoSelect_none Di hq hq1 ha (abs_nonneg χ) h) (by simpa using hb)
  | some v =>
    rw [h, Option.map_some] at hs
    exact ⟨v, by simp only [isotropicPrior, h], by simp only [isotropicPrior, hs]⟩

/-- **C61.** Away from the break points the value is a finite number. -/
theorem C61_finite (Di : ℝ → ℝ) (depth : ℕ) {χ q a : ℝ} (hq : 0 < q) (hq1 : q ≤ 1) (ha : 0 < a)
    (hb : |χ| ∉ [a * (1 - q) / (1 + q), a / (1 + q), q * a / (1 + q)]) :
    ∃ v : ℝ, isotropicPrior Di (depth + 1) χ q a = .ok (F.fin v) := by
  have h1 : 0 < 1 + q := by linarith
  suffices h : ∃ v : ℝ, isoSelect Di |χ| q a = some (F.fin v) by
    obtain ⟨v, hv⟩ := h; exact ⟨v, by simp only [isotropicPrior, hv]⟩
  have hn : isoSelect Di |χ| q a ≠ none := fun h => hb (by simpa using isoSelect_none Di hq hq1 ha (abs_nonneg χ) h)
  unfold isoSelect at hn ⊢
  simp only [] at hn ⊢
  split_ifs at hn ⊢ with hZ hA hB hC hD hE hF
  · exact ⟨_, rfl⟩
  · exact ⟨_, rfl⟩
  · exact ⟨_, rfl⟩
  · exact ⟨_, rfl⟩
  · refine ⟨_, congrArg some (isoD_eq Di hq ha ?_ ?_)⟩
    · have : q * a / (1 + q) < |χ| := lt_of_le_of_ne hD.2.2 (fun h => hb (by simp [← h]))
      rw [div_lt_iff₀ h1] at this; linarith
    · have := hD.2.1; rw [lt_div_iff₀ h1] at this; linarith
  · exact ⟨_, rfl⟩
  · exact ⟨_, rfl⟩
  · exact absurd rfl hn

/-- **C61 is false of the code.** For every mass ratio in `(1/2, 1)` and every maximal spin, the value at
`χ_eff = ± q·a/(1+q)`, well inside the support, is NaN: the point belongs to case D, two of whose logarithms diverge there
with opposite signs. -/
theorem C61_edge_fails (Di : ℝ → ℝ) (depth : ℕ) {q a : ℝ} (hq : 1 / 2 < q) (hq1 : q < 1) (ha : 0 < a) :
    isotropicPrior Di (depth + 1) (q * a / (1 + q)) q a = .ok F.nan ∧
    isotropicPrior Di (depth + 1) (-(q * a / (1 + q))) q a = .ok F.nan := by
  have h0 : 0 < q := by linarith
  have h1 : 0 < 1 + q := by linarith
  have hx : 0 < q * a / (1 + q) := by positivity
  have hlt : a * (1 - q) / (1 + q) < q * a / (1 + q) := div_lt_div_of_pos_right (by nlinarith) h1
  have hlt' : q * a / (1 + q) < a / (1 + q) := div_lt_div_of_pos_right (by nlinarith) h1
  have hsel : isoSelect Di (q * a / (1 + q)) q a = some F.nan := by
    unfold isoSelect
    simp only []
    rw [if_neg hx.ne', if_neg (fun h => lt_irrefl _ h.2.2), if_neg (fun h => lt_irrefl _ h.2),
      if_neg (fun h => lt_irrefl _ h.2), if_pos ⟨hlt, hlt', le_refl _⟩, isoD_edge Di h0 ha hx (by field_simp)]
  have : isotropicPrior Di (depth + 1) (q * a / (1 + q)) q a = .ok F.nan := by
    simp only [isotropicPrior, abs_of_pos hx, hsel]
  exact ⟨this, by rw [C61_even]; exact this⟩

example : |(0.3 : ℝ)| ∉ [1 * (1 - (0.5 : ℝ)) / (1 + 0.5), 1 / (1 + 0.5), 0.5 * 1 / (1 + 0.5)] := by
  rw [abs_of_pos (by norm_num)]; norm_num

/-! ## C62: the effective precession spin -/

/-- Specification.  With `s` uniform on `[0, A]` and an isotropic tilt (`cos θ` uniform on `[-1, 1]`), the probability that
`s·sin θ ≤ x`: the average over `s` of the fraction of cosines `c ∈ [-1, 1]` with `s·√(1 - c²) ≤ x`. -/
def projectedCdf (A x : ℝ) : ℝ :=
  (1 / A) * ∫ s in (0 : ℝ)..A, (volume {c : ℝ | c ∈ Set.Icc (-1) 1 ∧ s * √(1 - c ^ 2) ≤ x}).toReal / 2

theorem tilt_fraction {s x : ℝ} (hs : 0 < s) (hx : 0 < x) :
    (volume {c : ℝ | c ∈ Set.Icc (-1) 1 ∧ s * √(1 - c ^ 2) ≤ x}).toReal / 2 = 1 - √(1 - (x / s) ^ 2) := by
  set r := √(1 - (x / s) ^ 2) with hr
  have hr0 : 0 ≤ r := Real.sqrt_nonneg _
  have hr1 : r ≤ 1 := by
    rw [hr]; exact Real.sqrt_le_one.2 (by nlinarith [sq_nonneg (x / s)])
  have hset : {c : ℝ | c ∈ Set.Icc (-1) 1 ∧ s * √(1 - c ^ 2) ≤ x} = Set.Icc (-1) 1 \ Set.Ioo (-r) r := by
    ext c
    simp only [Set.mem_setOf_eq, Set.mem_sdiff, Set.mem_Ioo, ← abs_lt, not_lt]
    refine and_congr_right fun hc => ?_
    have hc2 : c ^ 2 ≤ 1 := by nlinarith [hc.1, hc.2]
    rw [mul_comm, ← le_div_iff₀ hs, Real.sqrt_le_left (by positivity), hr, Real.sqrt_le_left (abs_nonneg c), sq_abs]
    constructor <;> intro h <;> linarith
  have hsub : Set.Ioo (-r) r ⊆ Set.Icc (-1 : ℝ) 1 := fun c hc => ⟨by linarith [hc.1], by linarith [hc.2]⟩
  rw [hset, measure_sdiff hsub measurableSet_Ioo.nullMeasurableSet (by simp),
    Real.volume_Icc, Real.volume_Ioo, ENNReal.toReal_sub_of_le (ENNReal.ofReal_le_ofReal (by linarith)) (by simp),
    ENNReal.toReal_ofReal (by norm_num), ENNReal.toReal_ofReal (by linarith)]
  ring

/-- the closed form appearing in the code -/
def pG (A x : ℝ) : ℝ := A - √(A ^ 2 - x ^ 2) + x * Real.arccos (x / A)

theorem pG_deriv {A x : ℝ} (hA : 0 < A) (hx : -A < x) (hx' : x < A) : HasDerivAt (pG A) (Real.arccos (x / A)) x := by
  have hpos : 0 < A ^ 2 - x ^ 2 := by nlinarith
  have h1 : HasDerivAt (fun y : ℝ => A ^ 2 - y ^ 2) (-(2 * x)) x := by
    have := (hasDerivAt_pow 2 x).const_sub (A ^ 2); simpa using this
  have h2 := h1.sqrt hpos.ne'
  have hd : HasDerivAt (fun y : ℝ => y / A) (1 / A) x := (hasDerivAt_id x).div_const A
  have hne1 : x / A ≠ -1 := by
    intro h; rw [div_eq_iff hA.ne'] at h; linarith
  have hne2 : x / A ≠ 1 := by
    intro h; rw [div_eq_iff hA.ne'] at h; linarith
  have h3 := (Real.hasDerivAt_arccos hne1 hne2).comp x hd
  have h4 := (hasDerivAt_id x).mul h3
  have h5 := (h2.const_sub A).add h4
  have hs : √(1 - (x / A) ^ 2) = √(A ^ 2 - x ^ 2) / A := by
    rw [show 1 - (x / A) ^ 2 = (A ^ 2 - x ^ 2) / A ^ 2 by field_simp, Real.sqrt_div hpos.le, Real.sqrt_sq hA.le]
  have hsp : 0 < √(A ^ 2 - x ^ 2) := Real.sqrt_pos.2 hpos
  refine HasDerivAt.congr_deriv (f := pG A) h5 ?_
  simp only [id, Function.comp, hs]
  field_simp
  ring

theorem pG_cont (A : ℝ) : Continuous (pG A) := by
  unfold pG
  have := Real.continuous_arccos
  fun_prop

theorem pG_zero {A : ℝ} (hA : 0 < A) : pG A 0 = 0 := by
  unfold pG; simp [Real.sqrt_sq hA.le]

theorem pG_above {A x : ℝ} (hA : 0 < A) (hx : A ≤ x) : pG A x = A := by
  unfold pG
  rw [Real.sqrt_eq_zero_of_nonpos (by nlinarith), Real.arccos_of_one_le (by rw [le_div_iff₀ hA]; linarith)]; ring

theorem pG_deriv_above {A x : ℝ} (hA : 0 < A) (hx : A < x) : HasDerivAt (pG A) (Real.arccos (x / A)) x := by
  rw [Real.arccos_of_one_le (by rw [le_div_iff₀ hA]; linarith)]
  refine (hasDerivAt_const x A).congr_of_eventuallyEq ?_
  filter_upwards [lt_mem_nhds hx] with y hy using pG_above hA hy.le

theorem pG_strictMono {A : ℝ} (hA : 0 < A) : StrictMonoOn (pG A) (Set.Icc (-A) A) := by
  refine strictMonoOn_of_deriv_pos (convex_Icc _ _) (pG_cont A).continuousOn fun x hx => ?_
  rw [interior_Icc] at hx
  rw [(pG_deriv hA hx.1 hx.2).deriv, Real.arccos_pos, div_lt_one hA]
  exact hx.2

theorem pG_mono {A : ℝ} (hA : 0 < A) {x : ℝ} (h0 : 0 ≤ x) : 0 ≤ pG A x ∧ pG A x ≤ A := by
  rcases le_total x A with h | h
  · constructor
    · rw [← pG_zero hA]
      exact (pG_strictMono hA).monotoneOn ⟨by linarith, hA.le⟩ ⟨by linarith, h⟩ h0
    · conv_rhs => rw [← pG_above hA le_rfl]
      exact (pG_strictMono hA).monotoneOn ⟨by linarith, h⟩ ⟨by linarith, le_rfl⟩ h
  · rw [pG_above hA h]; exact ⟨hA.le, le_rfl⟩

/-- the largest in-plane contribution of the secondary spin -/
def secMax (q a : ℝ) : ℝ := q * a * (3 + 4 * q) / (4 + 3 * q)

theorem secMax_pos {q a : ℝ} (hq : 0 < q) (ha : 0 < a) : 0 < secMax q a := by unfold secMax; positivity
theorem secMax_le {q a : ℝ} (hq : 0 < q) (hq1 : q ≤ 1) (ha : 0 < a) : secMax q a ≤ a := by
  unfold secMax
  rw [div_le_iff₀ (by positivity)]
  nlinarith [mul_pos hq ha, mul_nonneg ha.le (mul_nonneg (by linarith : (0:ℝ) ≤ 1 - q) (by linarith : (0:ℝ) ≤ 1 + q))]

theorem chipPrior_eq {x q a : ℝ} (hq : 0 < q) (hq1 : q ≤ 1) (ha : 0 < a) :
    chipPrior x q a = Real.arccos (x / a) / a * (pG (secMax q a) x / secMax q a)
      + Real.arccos (x / secMax q a) / secMax q a * (pG a x / a) := by
  have hB := secMax_pos hq ha
  have hBa := secMax_le hq hq1 ha
  unfold chipPrior
  simp only []
  rw [show q * a * (3 + 4 * q) / (4 + 3 * q) = secMax q a from rfl]
  by_cases hA : x < secMax q a
  · rw [if_pos hA]
    have e1 : (4 + 3 * q) * x / ((3 + 4 * q) * q * a) = x / secMax q a := by unfold secMax; field_simp
    have e2 : (4 + 3 * q) * x / ((3 + 4 * q) * a * q) = x / secMax q a := by unfold secMax; field_simp
    have e3 : a * q * (3 + 4 * q) / (4 + 3 * q) = secMax q a := by unfold secMax; ring
    have e4 : a ^ 2 * q ^ 2 * ((3 + 4 * q) / (4 + 3 * q)) ^ 2 = secMax q a ^ 2 := by unfold secMax; ring
    have e5 : 1 / (a ^ 2 * q) * ((4 + 3 * q) / (3 + 4 * q)) = 1 / (a * secMax q a) := by unfold secMax; field_simp
    rw [e1, e2, e3, e4, e5]
    unfold pG
    field_simp
    ring
  · rw [if_neg hA]
    push Not at hA
    have e1 : Real.arccos (x / secMax q a) = 0 := Real.arccos_of_one_le (by rw [le_div_iff₀ hB]; linarith)
    rw [pG_above hB hA, e1, div_self hB.ne']
    by_cases hx : x < a
    · rw [if_pos ⟨hA, hx⟩]; ring
    · rw [if_neg (fun h => hx h.2), Real.arccos_of_one_le (by rw [le_div_iff₀ ha]; linarith)]; ring

theorem chipPrior_cont {q a : ℝ} (hq : 0 < q) (hq1 : q ≤ 1) (ha : 0 < a) : Continuous fun x => chipPrior x q a := by
  have : (fun x => chipPrior x q a) = _ := funext fun x => chipPrior_eq hq hq1 ha
  rw [this]
  have h1 := pG_cont a
  have h2 := pG_cont (secMax q a)
  have := Real.continuous_arccos
  fun_prop

/-- the closed form integrates the code's density -/
theorem chipPrior_integral {q a x : ℝ} (hq : 0 < q) (hq1 : q ≤ 1) (ha : 0 < a) (hx : 0 ≤ x) :
    ∫ y in (0 : ℝ)..x, chipPrior y q a = (pG a x / a) * (pG (secMax q a) x / secMax q a) := by
  have hB := secMax_pos hq ha
  have hBa := secMax_le hq hq1 ha
  have key := integral_eq_of_hasDerivAt_off_countable_of_le
    (fun y => (pG a y / a) * (pG (secMax q a) y / secMax q a)) (fun y => chipPrior y q a) hx
    (s := {a, secMax q a}) (Set.Countable.insert _ (Set.countable_singleton _)) ?_ ?_ ((chipPrior_cont hq hq1 ha).intervalIntegrable _ _)
  · rw [key]; simp [pG_zero ha]
  · have h1 := pG_cont a
    have h2 := pG_cont (secMax q a)
    exact Continuous.continuousOn (by fun_prop)
  · rintro y ⟨hy, hs⟩
    simp only [Set.mem_insert_iff, Set.mem_singleton_iff, not_or] at hs
    have d1 : ∀ A : ℝ, 0 < A → y ≠ A → HasDerivAt (pG A) (Real.arccos (y / A)) y := fun A hA hne => by
      rcases lt_or_gt_of_ne hne with h | h
      · exact pG_deriv hA (by linarith [hy.1]) h
      · exact pG_deriv_above hA h
    have h := ((d1 a ha hs.1).div_const a).mul ((d1 _ hB hs.2).div_const (secMax q a))
    rw [chipPrior_eq hq hq1 ha]
    refine HasDerivAt.congr_deriv (f := fun y => (pG a y / a) * (pG (secMax q a) y / secMax q a)) h ?_
    ring

/-- the closed form is the distribution function of the projected spin -/
theorem projectedCdf_eq {A x : ℝ} (hA : 0 < A) (hx : 0 < x) : projectedCdf A x = pG A x / A := by
  have hcongr : projectedCdf A x = (1 / A) * ∫ s in (0 : ℝ)..A, (1 - √(1 - (x / s) ^ 2)) := by
    unfold projectedCdf
    congr 1
    refine intervalIntegral.integral_congr_ae (Filter.Eventually.of_forall fun s hs => ?_)
    rw [Set.uIoc_of_le hA.le] at hs
    exact tilt_fraction hs.1 hx
  rw [hcongr]
  have hcont : ∀ c d : ℝ, 0 < c → c ≤ d → ContinuousOn (fun s : ℝ => 1 - √(1 - (x / s) ^ 2)) (Set.uIcc c d) := by
    intro c d hc hcd
    rw [Set.uIcc_of_le hcd]
    intro s hs
    have : s ≠ 0 := by have := hs.1; linarith
    apply ContinuousAt.continuousWithinAt
    fun_prop (disch := assumption)
  have low : ∀ d : ℝ, 0 ≤ d → d ≤ x → IntervalIntegrable (fun s : ℝ => 1 - √(1 - (x / s) ^ 2)) volume 0 d ∧
      ∫ s in (0 : ℝ)..d, (1 - √(1 - (x / s) ^ 2)) = d := by
    intro d hd hdx
    have hc : ∀ s ∈ Set.uIoc 0 d, (1 : ℝ) = 1 - √(1 - (x / s) ^ 2) := by
      intro s hs
      rw [Set.uIoc_of_le hd] at hs
      rw [Real.sqrt_eq_zero_of_nonpos, sub_zero]
      have : 1 ≤ x / s := by rw [le_div_iff₀ hs.1]; linarith [hs.2]
      nlinarith
    constructor
    · exact (intervalIntegrable_const (c := (1 : ℝ))).congr hc
    · rw [← intervalIntegral.integral_congr_ae (f := fun _ => (1 : ℝ)) (Filter.Eventually.of_forall hc)]
      simp
  rcases le_total A x with h | h
  · rw [(low A hA.le h).2, pG_above hA h]; field_simp
  · have hup := (hcont x A hx h).intervalIntegrable (μ := volume)
    rw [← intervalIntegral.integral_add_adjacent_intervals (low x hx.le le_rfl).1 hup, (low x hx.le le_rfl).2]
    have key := integral_eq_of_hasDerivAt_off_countable_of_le
      (fun s => s - √(s ^ 2 - x ^ 2) + x * Real.arccos (x / s)) (fun s => 1 - √(1 - (x / s) ^ 2)) h
      (s := ∅) Set.countable_empty ?_ ?_ hup
    · rw [key]
      simp only [sub_self, Real.sqrt_zero, div_self hx.ne', Real.arccos_one]
      unfold pG; field_simp; ring
    · intro s hs
      have hs0 : s ≠ 0 := by have := hs.1; linarith
      have := Real.continuous_arccos
      apply ContinuousAt.continuousWithinAt
      have h3 : ContinuousAt (fun s : ℝ => Real.arccos (x / s)) s :=
        Real.continuous_arccos.continuousAt.comp (continuousAt_const.div continuousAt_id hs0)
      exact (continuousAt_id.sub (by fun_prop)).add (continuousAt_const.mul h3)
    · rintro s ⟨hs, -⟩
      have hs0 : 0 < s := by linarith [hs.1]
      have hpos : 0 < s ^ 2 - x ^ 2 := by nlinarith [hs.1]
      have h1 : HasDerivAt (fun y : ℝ => y ^ 2 - x ^ 2) (2 * s) s := by
        have := (hasDerivAt_pow 2 s).sub_const (x ^ 2); simpa using this
      have h2 := h1.sqrt hpos.ne'
      have hd : HasDerivAt (fun y : ℝ => x / y) (-x / s ^ 2) s := by
        have := (hasDerivAt_inv hs0.ne').const_mul x
        simp only [div_eq_mul_inv]
        exact this.congr_deriv (by ring)
      have hlt : x / s < 1 := by rw [div_lt_one hs0]; exact hs.1
      have hgt : 0 < x / s := by positivity
      have h3 := (Real.hasDerivAt_arccos (by linarith) hlt.ne).comp s hd
      have h5 := ((hasDerivAt_id s).sub h2).add (h3.const_mul x)
      have hsq : √(1 - (x / s) ^ 2) = √(s ^ 2 - x ^ 2) / s := by
        rw [show 1 - (x / s) ^ 2 = (s ^ 2 - x ^ 2) / s ^ 2 by field_simp, Real.sqrt_div hpos.le, Real.sqrt_sq hs0.le]
      have hsp : 0 < √(s ^ 2 - x ^ 2) := Real.sqrt_pos.2 hpos
      have hss : √(s ^ 2 - x ^ 2) ^ 2 = s ^ 2 - x ^ 2 := Real.sq_sqrt hpos.le
      refine HasDerivAt.congr_deriv (f := fun s => s - √(s ^ 2 - x ^ 2) + x * Real.arccos (x / s)) h5 ?_
      rw [hsq]
      field_simp
      linear_combination hss

/-- **C62 (partial).** Non-negative for `χ_p ≥ 0`, positive inside and zero at and above the maximal spin.  Missing: negative
arguments, where the value is wrong (`C62_negative_fails`). -/
theorem C62_shape_partial {x q a : ℝ} (hq : 0 < q) (hq1 : q ≤ 1) (ha : 0 < a) (hx : 0 ≤ x) :
    0 ≤ chipPrior x q a ∧ (0 < x → x < a → 0 < chipPrior x q a) ∧ (a ≤ x → chipPrior x q a = 0) := by
  have hB := secMax_pos hq ha
  have g1 := pG_mono ha hx
  have g2 := pG_mono hB hx
  have p1 := Real.arccos_nonneg (x / a)
  have p2 := Real.arccos_nonneg (x / secMax q a)
  refine ⟨?_, ?_, ?_⟩
  · rw [chipPrior_eq hq hq1 ha]
    have := g1.1; have := g2.1
    positivity
  · intro h0 hxa
    rw [chipPrior_eq hq hq1 ha]
    have h3 : 0 < Real.arccos (x / a) := by rw [Real.arccos_pos, div_lt_one ha]; exact hxa
    have h4 : 0 < pG (secMax q a) x := by
      rcases le_total x (secMax q a) with h | h
      · rw [← pG_zero hB]; exact pG_strictMono hB ⟨by linarith, hB.le⟩ ⟨by linarith, h⟩ h0
      · rw [pG_above hB h]; exact hB
    have := g1.1
    positivity
  · intro h
    have h1 := secMax_le hq hq1 ha
    rw [chipPrior_eq hq hq1 ha, Real.arccos_of_one_le (by rw [le_div_iff₀ ha]; linarith),
      Real.arccos_of_one_le (by rw [le_div_iff₀ hB]; linarith)]
    ring

/-- **C62.** The density integrates to one over `[0, a]`. -/
theorem C62_normalised {q a : ℝ} (hq : 0 < q) (hq1 : q ≤ 1) (ha : 0 < a) : ∫ y in (0 : ℝ)..a, chipPrior y q a = 1 := by
  rw [chipPrior_integral hq hq1 ha ha.le, pG_above ha le_rfl, pG_above (secMax_pos hq ha) (secMax_le hq hq1 ha),
    div_self ha.ne', div_self (secMax_pos hq ha).ne']; norm_num

/-- **C62.** It is the right density: for every `x > 0` the mass below `x` is the probability that both in-plane spins,
`s₁ sin θ₁` with `s₁ ∈ [0, a]` and `(3+4q)/(4+3q) q s₂ sin θ₂` with `s₂ ∈ [0, a]`, are below `x`, i.e. that
`χ_p = max(·, ·) ≤ x`. -/
theorem C62_distribution {q a x : ℝ} (hq : 0 < q) (hq1 : q ≤ 1) (ha : 0 < a) (hx : 0 < x) :
    ∫ y in (0 : ℝ)..x, chipPrior y q a
      = projectedCdf a x * projectedCdf ((3 + 4 * q) / (4 + 3 * q) * q * a) x := by
  have e : (3 + 4 * q) / (4 + 3 * q) * q * a = secMax q a := by unfold secMax; ring
  rw [chipPrior_integral hq hq1 ha hx.le, e, projectedCdf_eq ha hx, projectedCdf_eq (secMax_pos hq ha) hx]

/-- **C62 is false of the code for negative arguments.** There is no lower guard: for every `χ_p` in
`(-q a (3+4q)/(4+3q), 0)` the returned "density" is a negative number instead of zero. -/
theorem C62_negative_fails {x q a : ℝ} (hq : 0 < q) (hq1 : q ≤ 1) (ha : 0 < a) (hx : x < 0)
    (hx' : -(q * a * (3 + 4 * q) / (4 + 3 * q)) < x) : chipPrior x q a < 0 := by
  have hB := secMax_pos hq ha
  have hBa := secMax_le hq hq1 ha
  have hx2 : -secMax q a < x := hx'
  have g1 : pG a x < 0 := by
    rw [← pG_zero ha]; exact pG_strictMono ha ⟨by linarith, by linarith⟩ ⟨by linarith, ha.le⟩ hx
  have g2 : pG (secMax q a) x < 0 := by
    rw [← pG_zero hB]; exact pG_strictMono hB ⟨hx2.le, by linarith⟩ ⟨by linarith, hB.le⟩ hx
  have p1 : 0 < Real.arccos (x / a) := by rw [Real.arccos_pos, div_lt_one ha]; linarith
  have p2 : 0 < Real.arccos (x / secMax q a) := by rw [Real.arccos_pos, div_lt_one hB]; linarith
  rw [chipPrior_eq hq hq1 ha]
  have := mul_neg_of_pos_of_neg (div_pos p1 ha) (div_neg_of_neg_of_pos g2 hB)
  have := mul_neg_of_pos_of_neg (div_pos p2 hB) (div_neg_of_neg_of_pos g1 ha)
  linarith

example : chipPrior (-0.1) 0.8 1 < 0 :=
  C62_negative_fails (by norm_num) (by norm_num) (by norm_num) (by norm_num) (by norm_num)

end GW
end
