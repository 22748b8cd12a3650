import Verif.Props.ChiPGiven
import Verif.Props.IsoLaw
import Mathlib.MeasureTheory.Function.AEEqOfLIntegral
import Mathlib.Probability.Independence.Basic
import Mathlib.Probability.Independence.InfinitePi

/-!
# C105: the joint law of effective spin and precession
-/

noncomputable section
open Classical MeasureTheory Set
namespace GW

/-! ## the weights -/

/-- the configuration with cosine `c` of the second tilt and effective spin `χ`: the first cosine -/
def solveCos (χ q a1 a2 c2 : ℝ) : ℝ := (χ * (1 + q) - q * a2 * c2) / a1

theorem accepted_iff {χ q a1 a2 c2 : ℝ} (h1 : 0 < a1) :
    ¬ unphysical (cost1 χ q ⟨a1, a2, c2⟩) ↔ solveCos χ q a1 a2 c2 ∈ Icc (-1) 1 := by
  unfold unphysical cost1 solveCos
  rw [F.div_fin h1.ne', F.lt_fin, F.gt_fin, not_or, not_lt, not_lt, mem_Icc]

theorem chipDraw_eq {χ q a1 a2 c2 : ℝ} (h1 : a1 ≠ 0) : chipDraw χ q ⟨a1, a2, c2⟩ = chip q a1 a2 (solveCos χ q a1 a2 c2) c2 := by
  unfold chipDraw cost1 solveCos
  rw [F.div_fin h1]
  rfl

theorem chip_measurable (q : ℝ) : Measurable fun p : ℝ × ℝ × ℝ × ℝ => chip q p.1 p.2.1 p.2.2.1 p.2.2.2 := by
  unfold chip
  fun_prop

/-- change of the first tilt into the effective spin, the other variables fixed -/
theorem lintegral_cos {q a1 a2 c2 : ℝ} (hq : 0 < q) (h1 : 0 < a1) {G : ℝ → ℝ → ENNReal} (hG : Measurable (Function.uncurry G)) :
    ∫⁻ c1 in Icc (-1) 1, G (chieff q a1 a2 c1 c2) (chip q a1 a2 c1 c2) =
      ∫⁻ χ, if solveCos χ q a1 a2 c2 ∈ Icc (-1) 1 then
        ENNReal.ofReal ((1 + q) / a1) * G χ (chip q a1 a2 (solveCos χ q a1 a2 c2) c2) else 0 := by
  have hp : 0 < 1 + q := by linarith
  have hc : 0 < (1 + q) / a1 := by positivity
  have hm1 : Measurable fun c1 : ℝ => G (chieff q a1 a2 c1 c2) (chip q a1 a2 c1 c2) := by
    have : Measurable fun c1 : ℝ => (chieff q a1 a2 c1 c2, chip q a1 a2 c1 c2) := by
      unfold chieff chip
      fun_prop
    exact hG.comp this
  rw [← lintegral_indicator measurableSet_Icc, lintegral_scale hc.ne' (hm1.indicator measurableSet_Icc), abs_of_pos hc,
    ← lintegral_sub_right_eq_self (fun x => (Icc (-1 : ℝ) 1).indicator (fun c1 => G (chieff q a1 a2 c1 c2) (chip q a1 a2 c1 c2)) ((1 + q) / a1 * x))
      (q * a2 * c2 / (1 + q)), ← lintegral_const_mul' _ _ ENNReal.ofReal_ne_top]
  refine lintegral_congr fun χ => ?_
  have e : (1 + q) / a1 * (χ - q * a2 * c2 / (1 + q)) = solveCos χ q a1 a2 c2 := by
    unfold solveCos; field_simp
  have e2 : chieff q a1 a2 (solveCos χ q a1 a2 c2) c2 = χ := by
    unfold solveCos chieff; field_simp; ring
  rw [e]
  by_cases h : solveCos χ q a1 a2 c2 ∈ Icc (-1) 1
  · rw [indicator_of_mem h, if_pos h, e2]
  · rw [indicator_of_notMem h, if_neg h, mul_zero]

/-- weighted mass, at effective spin `χ`, of the accepted draws -/
def weighted (q a χ : ℝ) (f : ℝ → ENNReal) : ENNReal :=
  ∫⁻ a1 in Ioo 0 a, ∫⁻ a2 in Ioo 0 a, ∫⁻ c2 in Ioo (-1) 1,
    if ¬ unphysical (cost1 χ q ⟨a1, a2, c2⟩) then ENNReal.ofReal (jacWeight q ⟨a1, a2, c2⟩) * f (chipDraw χ q ⟨a1, a2, c2⟩) else 0

theorem kernel_measurable (q : ℝ) {G : ℝ → ℝ → ENNReal} (hG : Measurable (Function.uncurry G)) :
    Measurable fun p : ℝ × ℝ × ℝ × ℝ => if solveCos p.2.2.2 q p.1 p.2.1 p.2.2.1 ∈ Icc (-1) 1 then
        ENNReal.ofReal ((1 + q) / p.1) * G p.2.2.2 (chip q p.1 p.2.1 (solveCos p.2.2.2 q p.1 p.2.1 p.2.2.1) p.2.2.1) else 0 := by
  have hs : Measurable fun p : ℝ × ℝ × ℝ × ℝ => solveCos p.2.2.2 q p.1 p.2.1 p.2.2.1 := by
    unfold solveCos; fun_prop
  refine Measurable.ite (hs measurableSet_Icc) ?_ measurable_const
  refine Measurable.mul (by fun_prop) ?_
  have : Measurable fun p : ℝ × ℝ × ℝ × ℝ => (p.2.2.2, chip q p.1 p.2.1 (solveCos p.2.2.2 q p.1 p.2.1 p.2.2.1) p.2.2.1) := by
    refine Measurable.prodMk (by fun_prop) ?_
    unfold chip
    fun_prop
  exact hG.comp this

/-- **C105 (weights).** For spins with uniform magnitudes and isotropic directions, the joint law of effective spin and precession is obtained by
fixing the effective spin, keeping the draws of the remaining three variables whose first cosine is physical and weighting each by
`(1 + q)/a₁`: exactly the acceptance test and the weights of the code. -/
theorem C105_weights {q a : ℝ} (hq : 0 < q) {G : ℝ → ℝ → ENNReal} (hG : Measurable (Function.uncurry G)) :
    ∫⁻ a1 in Ioo 0 a, ∫⁻ a2 in Ioo 0 a, ∫⁻ c2 in Ioo (-1) 1, ∫⁻ c1 in Icc (-1) 1, G (chieff q a1 a2 c1 c2) (chip q a1 a2 c1 c2) =
      ∫⁻ χ, ∫⁻ a1 in Ioo 0 a, ∫⁻ a2 in Ioo 0 a, ∫⁻ c2 in Ioo (-1) 1,
        if ¬ unphysical (cost1 χ q ⟨a1, a2, c2⟩) then ENNReal.ofReal (jacWeight q ⟨a1, a2, c2⟩) * G χ (chipDraw χ q ⟨a1, a2, c2⟩) else 0 := by
  have hK := kernel_measurable q hG
  set K : ℝ → ℝ → ℝ → ℝ → ENNReal := fun a1 a2 c2 χ => if solveCos χ q a1 a2 c2 ∈ Icc (-1) 1 then
        ENNReal.ofReal ((1 + q) / a1) * G χ (chip q a1 a2 (solveCos χ q a1 a2 c2) c2) else 0 with hKdef
  have hK' : Measurable fun p : ℝ × ℝ × ℝ × ℝ => K p.1 p.2.1 p.2.2.1 p.2.2.2 := hK
  have eR : ∀ χ, ∫⁻ a1 in Ioo 0 a, ∫⁻ a2 in Ioo 0 a, ∫⁻ c2 in Ioo (-1) 1,
        (if ¬ unphysical (cost1 χ q ⟨a1, a2, c2⟩) then ENNReal.ofReal (jacWeight q ⟨a1, a2, c2⟩) * G χ (chipDraw χ q ⟨a1, a2, c2⟩) else 0) =
      ∫⁻ a1 in Ioo 0 a, ∫⁻ a2 in Ioo 0 a, ∫⁻ c2 in Ioo (-1) 1, K a1 a2 c2 χ := by
    intro χ
    refine setLIntegral_congr_fun measurableSet_Ioo fun a1 h1 => ?_
    refine lintegral_congr fun a2 => lintegral_congr fun c2 => ?_
    simp only [hKdef]
    by_cases h : ¬ unphysical (cost1 χ q ⟨a1, a2, c2⟩)
    · rw [if_pos h, if_pos ((accepted_iff h1.1).1 h), chipDraw_eq h1.1.ne']; rfl
    · rw [if_neg h, if_neg fun h' => h ((accepted_iff h1.1).2 h')]
  simp only [eR]
  have eL : ∫⁻ a1 in Ioo 0 a, ∫⁻ a2 in Ioo 0 a, ∫⁻ c2 in Ioo (-1) 1, ∫⁻ c1 in Icc (-1) 1, G (chieff q a1 a2 c1 c2) (chip q a1 a2 c1 c2) =
      ∫⁻ a1 in Ioo 0 a, ∫⁻ a2 in Ioo 0 a, ∫⁻ c2 in Ioo (-1) 1, ∫⁻ χ, K a1 a2 c2 χ :=
    setLIntegral_congr_fun measurableSet_Ioo fun a1 h1 => lintegral_congr fun a2 => lintegral_congr fun c2 => lintegral_cos hq h1.1 hG
  rw [eL]
  have s1 : ∀ a1 a2, ∫⁻ c2 in Ioo (-1) 1, ∫⁻ χ, K a1 a2 c2 χ = ∫⁻ χ, ∫⁻ c2 in Ioo (-1) 1, K a1 a2 c2 χ := by
    intro a1 a2
    refine lintegral_lintegral_swap (f := fun c2 χ => K a1 a2 c2 χ) (Measurable.aemeasurable ?_)
    exact hK'.comp (show Measurable fun p : ℝ × ℝ => (a1, a2, p.1, p.2) by fun_prop)
  have m2 : Measurable fun p : ℝ × ℝ × ℝ => ∫⁻ c2 in Ioo (-1) 1, K p.1 p.2.1 c2 p.2.2 := by
    refine Measurable.lintegral_prod_right' (f := fun p : (ℝ × ℝ × ℝ) × ℝ => K p.1.1 p.1.2.1 p.2 p.1.2.2) ?_
    exact hK'.comp (show Measurable fun p : (ℝ × ℝ × ℝ) × ℝ => (p.1.1, p.1.2.1, p.2, p.1.2.2) by fun_prop)
  have s2 : ∀ a1, ∫⁻ a2 in Ioo 0 a, ∫⁻ χ, ∫⁻ c2 in Ioo (-1) 1, K a1 a2 c2 χ = ∫⁻ χ, ∫⁻ a2 in Ioo 0 a, ∫⁻ c2 in Ioo (-1) 1, K a1 a2 c2 χ := by
    intro a1
    refine lintegral_lintegral_swap (f := fun a2 χ => ∫⁻ c2 in Ioo (-1) 1, K a1 a2 c2 χ) (Measurable.aemeasurable ?_)
    exact m2.comp (show Measurable fun p : ℝ × ℝ => (a1, p.1, p.2) by fun_prop)
  have m3 : Measurable fun p : ℝ × ℝ => ∫⁻ a2 in Ioo 0 a, ∫⁻ c2 in Ioo (-1) 1, K p.1 a2 c2 p.2 := by
    refine Measurable.lintegral_prod_right' (f := fun p : (ℝ × ℝ) × ℝ => ∫⁻ c2 in Ioo (-1) 1, K p.1.1 p.2 c2 p.1.2) ?_
    exact m2.comp (show Measurable fun p : (ℝ × ℝ) × ℝ => (p.1.1, p.2, p.1.2) by fun_prop)
  simp only [s1, s2]
  exact lintegral_lintegral_swap (f := fun a1 χ => ∫⁻ a2 in Ioo 0 a, ∫⁻ c2 in Ioo (-1) 1, K a1 a2 c2 χ) m3.aemeasurable

theorem weighted_measurable (q a : ℝ) {G : ℝ → ℝ → ENNReal} (hG : Measurable (Function.uncurry G)) : Measurable fun χ => weighted q a χ (G χ) := by
  have hK := kernel_measurable q hG
  have e : (fun χ => weighted q a χ (G χ)) = fun χ => ∫⁻ a1 in Ioo 0 a, ∫⁻ a2 in Ioo 0 a, ∫⁻ c2 in Ioo (-1) 1, if solveCos χ q a1 a2 c2 ∈ Icc (-1) 1 then
        ENNReal.ofReal ((1 + q) / a1) * G χ (chip q a1 a2 (solveCos χ q a1 a2 c2) c2) else 0 := by
    funext χ
    unfold weighted
    refine setLIntegral_congr_fun measurableSet_Ioo fun a1 h1 => ?_
    refine lintegral_congr fun a2 => lintegral_congr fun c2 => ?_
    by_cases h : ¬ unphysical (cost1 χ q ⟨a1, a2, c2⟩)
    · rw [if_pos h, if_pos ((accepted_iff h1.1).1 h), chipDraw_eq h1.1.ne']; rfl
    · rw [if_neg h, if_neg fun h' => h ((accepted_iff h1.1).2 h')]
  rw [e]
  have m2 : Measurable fun p : ℝ × ℝ × ℝ => ∫⁻ c2 in Ioo (-1) 1, if solveCos p.2.2 q p.1 p.2.1 c2 ∈ Icc (-1) 1 then
        ENNReal.ofReal ((1 + q) / p.1) * G p.2.2 (chip q p.1 p.2.1 (solveCos p.2.2 q p.1 p.2.1 c2) c2) else 0 := by
    refine Measurable.lintegral_prod_right' (f := fun p : (ℝ × ℝ × ℝ) × ℝ => if solveCos p.1.2.2 q p.1.1 p.1.2.1 p.2 ∈ Icc (-1) 1 then
        ENNReal.ofReal ((1 + q) / p.1.1) * G p.1.2.2 (chip q p.1.1 p.1.2.1 (solveCos p.1.2.2 q p.1.1 p.1.2.1 p.2) p.2) else 0) ?_
    exact hK.comp (show Measurable fun p : (ℝ × ℝ × ℝ) × ℝ => (p.1.1, p.1.2.1, p.2, p.1.2.2) by fun_prop)
  have m3 : Measurable fun p : ℝ × ℝ => ∫⁻ a2 in Ioo 0 a, ∫⁻ c2 in Ioo (-1) 1, if solveCos p.2 q p.1 a2 c2 ∈ Icc (-1) 1 then
        ENNReal.ofReal ((1 + q) / p.1) * G p.2 (chip q p.1 a2 (solveCos p.2 q p.1 a2 c2) c2) else 0 := by
    refine Measurable.lintegral_prod_right' (f := fun p : (ℝ × ℝ) × ℝ => ∫⁻ c2 in Ioo (-1) 1, if solveCos p.1.2 q p.1.1 p.2 c2 ∈ Icc (-1) 1 then
        ENNReal.ofReal ((1 + q) / p.1.1) * G p.1.2 (chip q p.1.1 p.2 (solveCos p.1.2 q p.1.1 p.2 c2) c2) else 0) ?_
    exact m2.comp (show Measurable fun p : (ℝ × ℝ) × ℝ => (p.1.1, p.2, p.1.2) by fun_prop)
  refine Measurable.lintegral_prod_right' (f := fun p : ℝ × ℝ => ∫⁻ a2 in Ioo 0 a, ∫⁻ c2 in Ioo (-1) 1, if solveCos p.1 q p.2 a2 c2 ∈ Icc (-1) 1 then
        ENNReal.ofReal ((1 + q) / p.2) * G p.1 (chip q p.2 a2 (solveCos p.1 q p.2 a2 c2) c2) else 0) ?_
  exact m3.comp (show Measurable fun p : ℝ × ℝ => (p.2, p.1) by fun_prop)

/-- the two orders of integration agree -/
theorem reorder {q a : ℝ} {g : ℝ → ENNReal} (hg : Measurable g) :
    ∫⁻ a1 in Ioo 0 a, ∫⁻ a2 in Ioo 0 a, ∫⁻ c2 in Ioo (-1) 1, ∫⁻ c1 in Icc (-1) 1, g (chieff q a1 a2 c1 c2) =
      ∫⁻ a₁ in Ioo 0 a, ∫⁻ c₁ in Ioo (-1) 1, ∫⁻ a₂ in Ioo 0 a, ∫⁻ c₂ in Ioo (-1) 1, g ((a₁ * c₁ + q * (a₂ * c₂)) / (1 + q)) := by
  refine lintegral_congr fun a1 => ?_
  have e0 : ∀ a2 c1 c2, chieff q a1 a2 c1 c2 = (a1 * c1 + q * (a2 * c2)) / (1 + q) := by intro a2 c1 c2; unfold chieff; ring
  simp only [e0]
  rw [show volume.restrict (Icc (-1 : ℝ) 1) = volume.restrict (Ioo (-1) 1) from (Measure.restrict_congr_set Ioo_ae_eq_Icc).symm]
  have s1 : ∀ a2, ∫⁻ c2 in Ioo (-1) 1, ∫⁻ c1 in Ioo (-1) 1, g ((a1 * c1 + q * (a2 * c2)) / (1 + q)) =
      ∫⁻ c1 in Ioo (-1) 1, ∫⁻ c2 in Ioo (-1) 1, g ((a1 * c1 + q * (a2 * c2)) / (1 + q)) := by
    intro a2
    refine lintegral_lintegral_swap (f := fun c2 c1 => g ((a1 * c1 + q * (a2 * c2)) / (1 + q))) (Measurable.aemeasurable ?_)
    exact hg.comp (show Measurable fun p : ℝ × ℝ => (a1 * p.2 + q * (a2 * p.1)) / (1 + q) by fun_prop)
  simp only [s1]
  refine lintegral_lintegral_swap (f := fun a2 c1 => ∫⁻ c2 in Ioo (-1) 1, g ((a1 * c1 + q * (a2 * c2)) / (1 + q))) (Measurable.aemeasurable ?_)
  refine Measurable.lintegral_prod_right' (f := fun p : (ℝ × ℝ) × ℝ => g ((a1 * p.1.2 + q * (p.1.1 * p.2)) / (1 + q))) ?_
  exact hg.comp (show Measurable fun p : (ℝ × ℝ) × ℝ => (a1 * p.1.2 + q * (p.1.1 * p.2)) / (1 + q) by fun_prop)

/-- **C105 (marginal).** The total weight of the accepted draws at effective spin `χ` is, for almost every `χ`, the value of the other factor of
the joint prior (up to the volume `4 a²`): the two factors of the product belong to the same joint law. -/
theorem C105_marginal {q a : ℝ} (hq : 0 < q) (hq1 : q ≤ 1) (ha : 0 < a) :
    ∀ᵐ χ : ℝ, weighted q a χ (fun _ => 1) = ENNReal.ofReal (4 * a ^ 2) * ENNReal.ofReal (isoDensity χ q a) := by
  have m1 : Measurable fun χ => weighted q a χ (fun _ => 1) := weighted_measurable q a (G := fun _ _ => 1) measurable_const
  have m2 : Measurable fun χ => ENNReal.ofReal (4 * a ^ 2) * ENNReal.ofReal (isoDensity χ q a) :=
    ((isoDensity_measurable q a).ennreal_ofReal).const_mul _
  refine ae_eq_of_forall_setLIntegral_eq_of_sigmaFinite m1 m2 fun s hs _ => ?_
  have hg : Measurable (s.indicator (fun _ : ℝ => (1 : ENNReal))) := measurable_const.indicator hs
  have h1 := C105_weights (a := a) hq (G := fun χ _ => s.indicator (fun _ => 1) χ) (hg.comp measurable_fst)
  rw [reorder hg, iso_law hq hq1 ha hg, ← lintegral_const_mul' _ _ ENNReal.ofReal_ne_top] at h1
  rw [← lintegral_indicator hs, ← lintegral_indicator hs]
  have e1 : ∀ χ, s.indicator (fun χ => ENNReal.ofReal (4 * a ^ 2) * ENNReal.ofReal (isoDensity χ q a)) χ =
      ENNReal.ofReal (4 * a ^ 2) * (ENNReal.ofReal (isoDensity χ q a) * s.indicator (fun _ => 1) χ) := by
    intro χ
    by_cases h : χ ∈ s
    · rw [indicator_of_mem h, indicator_of_mem h, mul_one]
    · rw [indicator_of_notMem h, indicator_of_notMem h, mul_zero, mul_zero]
  have e2 : ∀ χ, s.indicator (fun χ => weighted q a χ (fun _ => 1)) χ = ∫⁻ a1 in Ioo 0 a, ∫⁻ a2 in Ioo 0 a, ∫⁻ c2 in Ioo (-1) 1,
        if ¬ unphysical (cost1 χ q ⟨a1, a2, c2⟩) then ENNReal.ofReal (jacWeight q ⟨a1, a2, c2⟩) * s.indicator (fun _ => 1) χ else 0 := by
    intro χ
    by_cases h : χ ∈ s
    · rw [indicator_of_mem h, indicator_of_mem h]; rfl
    · rw [indicator_of_notMem h, indicator_of_notMem h]
      simp
  simp only [e1, e2]
  exact h1.symm

/-! ## the rejection loop -/

/-- the uniform numbers of one row -/
def uRow (u : ℝ × ℝ × ℝ) : URow := ⟨u.1, u.2.1, u.2.2⟩

/-- the three uniform numbers are independent and uniform on `[0, 1)` -/
def unifCube : Measure (ℝ × ℝ × ℝ) :=
  (volume.restrict (Ico (0 : ℝ) 1)).prod ((volume.restrict (Ico (0 : ℝ) 1)).prod (volume.restrict (Ico (0 : ℝ) 1)))

/-- the uniform numbers that give a physical configuration -/
def acceptSet (χ q a : ℝ) : Set (ℝ × ℝ × ℝ) := {u | ¬ unphysical (cost1 χ q (mkRow a (uRow u)))}

section first
variable {Ω : Type} [MeasurableSpace Ω] {P : Measure Ω} [IsProbabilityMeasure P] {V : ℕ → Ω → ℝ × ℝ × ℝ} {μ : Measure (ℝ × ℝ × ℝ)}

/-- the law of the first draw that falls in `A` -/
theorem first_law (hV : ∀ k, Measurable (V k)) (hind : ProbabilityTheory.iIndepFun V P) (hlaw : ∀ k, P.map (V k) = μ) {A B : Set (ℝ × ℝ × ℝ)}
    (hA : MeasurableSet A) (hB : MeasurableSet B) :
    P {ω | ∃ j, (∀ m < j, V m ω ∉ A) ∧ V j ω ∈ A ∧ V j ω ∈ B} = μ (A ∩ B) / μ A := by
  have hμ : IsProbabilityMeasure μ := by rw [← hlaw 0]; exact Measure.isProbabilityMeasure_map (hV 0).aemeasurable
  have hpre : ∀ k {S : Set (ℝ × ℝ × ℝ)}, MeasurableSet S → P (V k ⁻¹' S) = μ S := by
    intro k S hS
    rw [← hlaw k, Measure.map_apply (hV k) hS]
  have hset : {ω | ∃ j, (∀ m < j, V m ω ∉ A) ∧ V j ω ∈ A ∧ V j ω ∈ B} =
      ⋃ j, ⋂ m ∈ Finset.range (j + 1), V m ⁻¹' (if m < j then Aᶜ else A ∩ B) := by
    ext ω
    simp only [mem_setOf_eq, mem_iUnion, mem_iInter, Finset.mem_range, mem_preimage]
    refine exists_congr fun j => ?_
    constructor
    · rintro ⟨h1, h2, h3⟩ m hm
      by_cases hj : m < j
      · rw [if_pos hj]; exact h1 m hj
      · obtain rfl : m = j := by omega
        rw [if_neg hj]; exact ⟨h2, h3⟩
    · intro h
      refine ⟨fun m hm => ?_, ?_⟩
      · have := h m (by omega)
        rw [if_pos hm] at this
        exact this
      · have := h j (by omega)
        rw [if_neg (lt_irrefl j)] at this
        exact this
  have hms : ∀ j m : ℕ, MeasurableSet (if m < j then Aᶜ else A ∩ B) := by
    intro j m
    split_ifs
    · exact hA.compl
    · exact hA.inter hB
  rw [hset, measure_iUnion]
  · have e : ∀ j, P (⋂ m ∈ Finset.range (j + 1), V m ⁻¹' (if m < j then Aᶜ else A ∩ B)) = μ Aᶜ ^ j * μ (A ∩ B) := by
      intro j
      rw [(ProbabilityTheory.iIndepFun_iff_measure_inter_preimage_eq_mul.1 hind) (Finset.range (j + 1)) fun m _ => hms j m, Finset.prod_range_succ]
      congr 1
      · rw [Finset.prod_congr rfl (g := fun _ => μ Aᶜ), Finset.prod_const, Finset.card_range]
        intro m hm
        rw [hpre m (hms j m), if_pos (Finset.mem_range.1 hm)]
      · rw [hpre j (hms j j), if_neg (lt_irrefl j)]
    simp only [e]
    rw [ENNReal.tsum_mul_right, ENNReal.tsum_geometric, prob_compl_eq_one_sub hA, ENNReal.sub_sub_cancel ENNReal.one_ne_top prob_le_one, mul_comm]
    rfl
  · intro j j' hne
    rw [Function.onFun, Set.disjoint_left]
    intro ω h1 h2
    simp only [mem_iInter, Finset.mem_range, mem_preimage] at h1 h2
    rcases lt_or_gt_of_ne hne with h | h
    · have a1 := h1 j (by omega)
      have a2 := h2 j (by omega)
      rw [if_neg (lt_irrefl j)] at a1
      rw [if_pos h] at a2
      exact a2 a1.1
    · have a1 := h1 j' (by omega)
      have a2 := h2 j' (by omega)
      rw [if_neg (lt_irrefl j')] at a2
      rw [if_pos h] at a1
      exact a1 a2.1
  · exact fun j => Finset.measurableSet_biInter _ fun m _ => hV m (hms j m)

end first

theorem rounds_before {n : ℕ} {χ q a : ℝ} {stream : ℕ → Fin n → URow} {i : Fin n} {j : ℕ}
    (h : ∀ m < j, unphysical (cost1 χ q (mkRow a (stream m i)))) : ∀ k ≤ j, rounds χ q a stream k i = mkRow a (stream k i) := by
  intro k
  induction k with
  | zero => exact fun _ => rfl
  | succ k ih =>
    intro hk
    rw [rounds, redraw, ih (by omega), if_pos (h k (by omega))]

/-- row `i` once it has first been physical at draw `j` -/
theorem rounds_first {n : ℕ} {χ q a : ℝ} {stream : ℕ → Fin n → URow} {i : Fin n} {j : ℕ}
    (h : ∀ m < j, unphysical (cost1 χ q (mkRow a (stream m i)))) (hj : ¬ unphysical (cost1 χ q (mkRow a (stream j i)))) {k : ℕ} (hk : j ≤ k) :
    rounds χ q a stream k i = mkRow a (stream j i) := by
  have e := rounds_before h j le_rfl
  obtain ⟨m, rfl⟩ := Nat.exists_eq_add_of_le hk
  rw [C63_kept j i (by rw [e]; exact hj) m, e]

/-- the stored row as a point of `ℝ³` -/
def SpinRow.pt (r : SpinRow) : ℝ × ℝ × ℝ := (r.a1, r.a2, r.cost2)

/-- a point of `ℝ³` as a row -/
def rowOf (t : ℝ × ℝ × ℝ) : SpinRow := ⟨t.1, t.2.1, t.2.2⟩

theorem rowOf_pt (r : SpinRow) : rowOf r.pt = r := rfl

/-- the physical rows -/
def acceptRows (χ q : ℝ) : Set (ℝ × ℝ × ℝ) := {t | ¬ unphysical (cost1 χ q (rowOf t))}

theorem acceptRows_measurable (χ q : ℝ) : MeasurableSet (acceptRows χ q) := by
  have e : acceptRows χ q = {t | t.1 ≠ 0 ∧ solveCos χ q t.1 t.2.1 t.2.2 ∈ Icc (-1) 1} ∪ {t | t.1 = 0 ∧ χ * (1 + q) - q * t.2.1 * t.2.2 = 0} := by
    ext t
    simp only [acceptRows, mem_setOf_eq, mem_union, unphysical, cost1, rowOf]
    by_cases h : t.1 = 0
    · rw [h, F.div_fin_zero]
      simp only [ne_eq, not_true_eq_false, false_and, true_and, false_or]
      rcases lt_trichotomy (χ * (1 + q) - q * t.2.1 * t.2.2) 0 with h0 | h0 | h0
      · rw [F.infOfSign_neg h0]
        simp [F.lt, F.gt, h0.ne]
      · rw [h0, F.infOfSign_zero]
        simp [F.gt, F.lt_nan_left, F.lt_nan_right]
      · rw [F.infOfSign_pos h0]
        simp [F.lt, F.gt, h0.ne']
    · rw [F.div_fin h, F.lt_fin, F.gt_fin, not_or, not_lt, not_lt]
      simp [h, solveCos]
  rw [e]
  have hs : Measurable fun t : ℝ × ℝ × ℝ => solveCos χ q t.1 t.2.1 t.2.2 := by unfold solveCos; fun_prop
  refine MeasurableSet.union (MeasurableSet.inter ?_ (hs measurableSet_Icc)) (MeasurableSet.inter ?_ ?_)
  · exact (measurableSet_eq_fun measurable_fst measurable_const).compl
  · exact measurableSet_eq_fun measurable_fst measurable_const
  · exact measurableSet_eq_fun (by fun_prop) measurable_const

theorem scale_measurable (a : ℝ) : Measurable fun u : ℝ × ℝ × ℝ => (mkRow a (uRow u)).pt := by
  unfold SpinRow.pt mkRow uRow
  fun_prop

theorem acceptSet_measurable (χ q a : ℝ) : MeasurableSet (acceptSet χ q a) := (acceptRows_measurable χ q).preimage (scale_measurable a)

instance unif_prob : IsProbabilityMeasure (volume.restrict (Ico (0 : ℝ) 1)) := ⟨by simp⟩

instance : IsProbabilityMeasure unifCube := by unfold unifCube; infer_instance

/-- A reachable effective spin is accepted with positive probability. -/
theorem accept_pos {χ q a : ℝ} (hq : 0 < q) (hχ : |χ| < a) : unifCube (acceptSet χ q a) ≠ 0 := by
  have ha : 0 < a := (abs_nonneg χ).trans_lt hχ
  set O : Set (ℝ × ℝ × ℝ) := {u | (0 < u.1 ∧ u.1 < 1) ∧ (0 < u.2.1 ∧ u.2.1 < 1) ∧ (0 < u.2.2 ∧ u.2.2 < 1) ∧
    |χ * (1 + q) - q * (u.2.1 * a) * (2 * u.2.2 - 1)| < u.1 * a} with hO
  have hopen : IsOpen O := by
    have o : ∀ f g : ℝ × ℝ × ℝ → ℝ, Continuous f → Continuous g → IsOpen {u | f u < g u} := fun f g hf hg => isOpen_lt hf hg
    exact ((o (fun _ => 0) (fun u => u.1) (by fun_prop) (by fun_prop)).inter (o (fun u => u.1) (fun _ => 1) (by fun_prop) (by fun_prop))).inter
      (((o (fun _ => 0) (fun u => u.2.1) (by fun_prop) (by fun_prop)).inter (o (fun u => u.2.1) (fun _ => 1) (by fun_prop) (by fun_prop))).inter
      (((o (fun _ => 0) (fun u => u.2.2) (by fun_prop) (by fun_prop)).inter (o (fun u => u.2.2) (fun _ => 1) (by fun_prop) (by fun_prop))).inter
      (o (fun u => |χ * (1 + q) - q * (u.2.1 * a) * (2 * u.2.2 - 1)|) (fun u => u.1 * a) (by fun_prop) (by fun_prop))))
  have hne : O.Nonempty := by
    set r := (|χ| + a) / 2 with hr
    have h0 := abs_nonneg χ
    have hr0 : 0 < r := by rw [hr]; linarith
    have hr1 : |χ| < r := by rw [hr]; linarith
    have hra : r < a := by rw [hr]; linarith
    obtain ⟨l1, l2⟩ := abs_lt.1 hr1
    have d1 : -1 < χ / r := by rw [lt_div_iff₀ hr0]; linarith
    have d2 : χ / r < 1 := by rw [div_lt_one hr0]; exact l2
    refine ⟨(r / a, r / a, (1 + χ / r) / 2), ⟨by positivity, (div_lt_one ha).2 hra⟩, ⟨by positivity, (div_lt_one ha).2 hra⟩,
      ⟨by simp only []; linarith, by simp only []; linarith⟩, ?_⟩
    have e : χ * (1 + q) - q * (r / a * a) * (2 * ((1 + χ / r) / 2) - 1) = χ := by field_simp; ring
    simp only []
    rw [e, div_mul_cancel₀ _ ha.ne']
    exact hr1
  have hsub : O ⊆ acceptSet χ q a ∩ (Ico 0 1 ×ˢ (Ico 0 1 ×ˢ Ico 0 1)) := by
    rintro u ⟨⟨h1, h2⟩, ⟨h3, h4⟩, ⟨h5, h6⟩, h7⟩
    refine ⟨?_, ⟨h1.le, h2⟩, ⟨h3.le, h4⟩, h5.le, h6⟩
    have hp : 0 < u.1 * a := mul_pos h1 ha
    refine (accepted_iff hp).2 ?_
    obtain ⟨b1, b2⟩ := abs_lt.1 h7
    unfold solveCos
    constructor
    · rw [le_div_iff₀ hp]
      show -1 * (u.1 * a) ≤ χ * (1 + q) - q * (u.2.1 * a) * (2 * u.2.2 - 1)
      linarith
    · rw [div_le_one hp]; exact b2.le
  have hμ : unifCube (acceptSet χ q a) = volume (acceptSet χ q a ∩ (Ico 0 1 ×ˢ (Ico 0 1 ×ˢ Ico 0 1))) := by
    unfold unifCube
    rw [Measure.prod_restrict, Measure.prod_restrict, Measure.restrict_apply (acceptSet_measurable χ q a)]
    rfl
  rw [hμ]
  exact ((hopen.measure_pos volume hne).trans_le (measure_mono hsub)).ne'

/-- What the loop hands on: the rows at the round where it ends. -/
def finalRow {n : ℕ} (χ q a : ℝ) (stream : ℕ → Fin n → URow) (i : Fin n) : SpinRow :=
  if h : ∃ k, loopEnds χ q a stream k then rounds χ q a stream (Nat.find h) i else rounds χ q a stream 0 i

section law
variable {n : ℕ} {Ω : Type} [MeasurableSpace Ω] {P : Measure Ω} [IsProbabilityMeasure P] {U : ℕ × Fin n → Ω → ℝ × ℝ × ℝ} {χ q a : ℝ}

/-- the stream of uniform numbers of an outcome -/
def streamOf (U : ℕ × Fin n → Ω → ℝ × ℝ × ℝ) (ω : Ω) : ℕ → Fin n → URow := fun k i => uRow (U (k, i) ω)

theorem all_first (hU : ∀ k, Measurable (U k)) (hind : ProbabilityTheory.iIndepFun U P) (hlaw : ∀ k, P.map (U k) = unifCube)
    (hq : 0 < q) (hχ : |χ| < a) :
    ∀ᵐ ω ∂P, ∀ i, ∃ j, (∀ m < j, U (m, i) ω ∉ acceptSet χ q a) ∧ U (j, i) ω ∈ acceptSet χ q a := by
  rw [ae_all_iff]
  intro i
  have h := first_law (V := fun k => U (k, i)) (fun k => hU _) (hind.precomp (g := fun k => (k, i)) fun k k' h => (Prod.mk.inj h).1)
    (fun k => hlaw _) (acceptSet_measurable χ q a) MeasurableSet.univ
  rw [inter_univ, ENNReal.div_self (accept_pos hq hχ) (measure_ne_top _ _)] at h
  have hs : NullMeasurableSet {ω | ∃ j, (∀ m < j, U (m, i) ω ∉ acceptSet χ q a) ∧ U (j, i) ω ∈ acceptSet χ q a ∧ U (j, i) ω ∈ (univ : Set (ℝ × ℝ × ℝ))} P := by
    refine MeasurableSet.nullMeasurableSet ?_
    have hm := fun k => hU (k, i) (acceptSet_measurable χ q a)
    have : {ω | ∃ j, (∀ m < j, U (m, i) ω ∉ acceptSet χ q a) ∧ U (j, i) ω ∈ acceptSet χ q a ∧ U (j, i) ω ∈ (univ : Set (ℝ × ℝ × ℝ))} =
        ⋃ j, (⋂ m, ⋂ (_ : m < j), (U (m, i) ⁻¹' acceptSet χ q a)ᶜ) ∩ U (j, i) ⁻¹' acceptSet χ q a := by
      ext ω; simp
    rw [this]
    exact MeasurableSet.iUnion fun j => (MeasurableSet.iInter fun m => MeasurableSet.iInter fun _ => (hm m).compl).inter (hm j)
  have h2 := (prob_compl_eq_zero_iff₀ hs).2 h
  filter_upwards [compl_mem_ae_iff.2 h2] with ω hω
  rw [compl_compl] at hω
  obtain ⟨j, h1, h2, -⟩ := hω
  exact ⟨j, h1, h2⟩

theorem rejected {ω : Ω} {m : ℕ} {i : Fin n} (h : U (m, i) ω ∉ acceptSet χ q a) : unphysical (cost1 χ q (mkRow a (streamOf U ω m i))) :=
  not_not.1 h

theorem ends_of_first {ω : Ω} (h : ∀ i, ∃ j, (∀ m < j, U (m, i) ω ∉ acceptSet χ q a) ∧ U (j, i) ω ∈ acceptSet χ q a) :
    ∃ k, loopEnds χ q a (streamOf U ω) k := by
  choose j h1 h2 using h
  refine ⟨Finset.univ.sup j, fun i => ?_⟩
  rw [rounds_first (stream := streamOf U ω) (j := j i) (fun m hm => rejected (h1 i m hm)) (h2 i) (Finset.le_sup (Finset.mem_univ i))]
  exact h2 i

theorem final_of_first {ω : Ω} (h : ∀ i, ∃ j, (∀ m < j, U (m, i) ω ∉ acceptSet χ q a) ∧ U (j, i) ω ∈ acceptSet χ q a) {i : Fin n} {j : ℕ}
    (h1 : ∀ m < j, U (m, i) ω ∉ acceptSet χ q a) (h2 : U (j, i) ω ∈ acceptSet χ q a) :
    finalRow χ q a (streamOf U ω) i = mkRow a (uRow (U (j, i) ω)) := by
  have he := ends_of_first h
  unfold finalRow
  rw [dif_pos he]
  have hend := Nat.find_spec he i
  set k := Nat.find he
  rcases lt_or_ge k j with hk | hk
  · exfalso
    rw [rounds_before (stream := streamOf U ω) (j := j) (fun m hm => rejected (h1 m hm)) k hk.le] at hend
    exact h1 k hk hend
  · exact rounds_first (stream := streamOf U ω) (fun m hm => rejected (h1 m hm)) h2 hk

theorem loop_law (hU : ∀ k, Measurable (U k)) (hind : ProbabilityTheory.iIndepFun U P) (hlaw : ∀ k, P.map (U k) = unifCube)
    (hq : 0 < q) (hχ : |χ| < a) :
    (∀ᵐ ω ∂P, ∃ k, loopEnds χ q a (streamOf U ω) k) ∧
    ∀ (i : Fin n) (B : Set (ℝ × ℝ × ℝ)), MeasurableSet B →
      P {ω | (finalRow χ q a (streamOf U ω) i).pt ∈ B} =
        unifCube {u | ¬ unphysical (cost1 χ q (mkRow a (uRow u))) ∧ (mkRow a (uRow u)).pt ∈ B} /
          unifCube {u | ¬ unphysical (cost1 χ q (mkRow a (uRow u)))} := by
  have hall := all_first hU hind hlaw hq hχ
  refine ⟨by filter_upwards [hall] with ω hω using ends_of_first hω, fun i B hB => ?_⟩
  have h := first_law (V := fun k => U (k, i)) (fun k => hU _) (hind.precomp (g := fun k => (k, i)) fun k k' h => (Prod.mk.inj h).1)
    (fun k => hlaw _) (acceptSet_measurable χ q a) (hB.preimage (scale_measurable a))
  refine Eq.trans (measure_congr ?_) h
  filter_upwards [hall] with ω hω
  obtain ⟨j, h1, h2⟩ := hω i
  refine propext ⟨fun hm => ?_, fun hm => ?_⟩
  · refine ⟨j, h1, h2, ?_⟩
    have hm' : (finalRow χ q a (streamOf U ω) i).pt ∈ B := hm
    rw [final_of_first hω h1 h2] at hm'
    exact hm'
  · obtain ⟨j', h1', h2', h3⟩ := hm
    show (finalRow χ q a (streamOf U ω) i).pt ∈ B
    rw [final_of_first hω h1' h2']
    exact h3

theorem rounds_measurable (hU : ∀ k, Measurable (U k)) (χ q a : ℝ) (k : ℕ) (i : Fin n) :
    Measurable fun ω => (rounds χ q a (streamOf U ω) k i).pt := by
  induction k with
  | zero => exact (scale_measurable a).comp (hU (0, i))
  | succ k ih =>
    have e : (fun ω => (rounds χ q a (streamOf U ω) (k + 1) i).pt) = fun ω =>
        if (rounds χ q a (streamOf U ω) k i).pt ∈ acceptRows χ q then (rounds χ q a (streamOf U ω) k i).pt else (mkRow a (uRow (U (k + 1, i) ω))).pt := by
      funext ω
      rw [rounds, redraw]
      by_cases h : unphysical (cost1 χ q (rounds χ q a (streamOf U ω) k i))
      · rw [if_pos h, if_neg (show ¬ (rounds χ q a (streamOf U ω) k i).pt ∈ acceptRows χ q from fun h' => h' h)]; rfl
      · rw [if_neg h, if_pos (show (rounds χ q a (streamOf U ω) k i).pt ∈ acceptRows χ q from h)]
    rw [e]
    exact Measurable.ite (ih (acceptRows_measurable χ q)) ih ((scale_measurable a).comp (hU (k + 1, i)))

theorem ends_measurable (hU : ∀ k, Measurable (U k)) (χ q a : ℝ) (k : ℕ) : MeasurableSet {ω | loopEnds χ q a (streamOf U ω) k} := by
  have e : {ω | loopEnds χ q a (streamOf U ω) k} = ⋂ i, (fun ω => (rounds χ q a (streamOf U ω) k i).pt) ⁻¹' acceptRows χ q := by
    ext ω
    simp only [mem_setOf_eq, mem_iInter, mem_preimage]
    exact Iff.rfl
  rw [e]
  exact MeasurableSet.iInter fun i => rounds_measurable hU χ q a k i (acceptRows_measurable χ q)

theorem final_measurable (hU : ∀ k, Measurable (U k)) (χ q a : ℝ) (i : Fin n) : Measurable fun ω => (finalRow χ q a (streamOf U ω) i).pt := by
  intro B hB
  have hr := fun k => rounds_measurable hU χ q a k i hB
  have he := ends_measurable (U := U) hU χ q a
  have e : (fun ω => (finalRow χ q a (streamOf U ω) i).pt) ⁻¹' B =
      (⋃ k, ({ω | loopEnds χ q a (streamOf U ω) k} ∩ ⋂ m, ⋂ (_ : m < k), {ω | loopEnds χ q a (streamOf U ω) m}ᶜ) ∩
        (fun ω => (rounds χ q a (streamOf U ω) k i).pt) ⁻¹' B) ∪
      ((⋂ k, {ω | loopEnds χ q a (streamOf U ω) k}ᶜ) ∩ (fun ω => (rounds χ q a (streamOf U ω) 0 i).pt) ⁻¹' B) := by
    ext ω
    simp only [mem_preimage, mem_union, mem_iUnion, mem_inter_iff, mem_iInter, mem_compl_iff, mem_setOf_eq, finalRow]
    by_cases h : ∃ k, loopEnds χ q a (streamOf U ω) k
    · rw [dif_pos h]
      constructor
      · intro hb
        exact .inl ⟨Nat.find h, ⟨Nat.find_spec h, fun m hm => Nat.find_min h hm⟩, hb⟩
      · rintro (⟨k, ⟨h1, h2⟩, h3⟩ | ⟨h1, -⟩)
        · rwa [(Nat.find_eq_iff h).2 ⟨h1, h2⟩]
        · obtain ⟨k, hk⟩ := h
          exact absurd hk (h1 k)
    · rw [dif_neg h]
      constructor
      · intro hb
        exact .inr ⟨fun k hk => h ⟨k, hk⟩, hb⟩
      · rintro (⟨k, ⟨h1, -⟩, -⟩ | ⟨-, h2⟩)
        · exact absurd ⟨k, h1⟩ h
        · exact h2
  rw [e]
  refine MeasurableSet.union (MeasurableSet.iUnion fun k => ((he k).inter (MeasurableSet.iInter fun m => MeasurableSet.iInter fun _ => (he m).compl)).inter (hr k)) ?_
  exact (MeasurableSet.iInter fun k => (he k).compl).inter (hr 0)

theorem final_law (hU : ∀ k, Measurable (U k)) (hind : ProbabilityTheory.iIndepFun U P) (hlaw : ∀ k, P.map (U k) = unifCube)
    (hq : 0 < q) (hχ : |χ| < a) (i : Fin n) :
    P.map (fun ω => (finalRow χ q a (streamOf U ω) i).pt) =
      (unifCube (acceptSet χ q a))⁻¹ • (unifCube.restrict (acceptSet χ q a)).map (fun u => (mkRow a (uRow u)).pt) := by
  refine Measure.ext fun B hB => ?_
  rw [Measure.map_apply (final_measurable hU χ q a i) hB, Measure.smul_apply, Measure.map_apply (scale_measurable a) hB,
    Measure.restrict_apply (hB.preimage (scale_measurable a)), smul_eq_mul, mul_comm]
  refine ((loop_law hU hind hlaw hq hχ).2 i B hB).trans ?_
  rw [div_eq_mul_inv]
  congr 2
  ext u
  exact and_comm

/-- uniform numbers stretched to `(0, a)` -/
theorem stretch {a : ℝ} (ha : 0 < a) {g : ℝ → ENNReal} (hg : Measurable g) :
    ∫⁻ x in Ioo 0 a, g x = ENNReal.ofReal a * ∫⁻ u in Ico 0 1, g (u * a) := by
  rw [show volume.restrict (Ico (0 : ℝ) 1) = volume.restrict (Ioo 0 1) from (Measure.restrict_congr_set Ioo_ae_eq_Ico).symm,
    ← lintegral_indicator measurableSet_Ioo, ← lintegral_indicator measurableSet_Ioo, lintegral_scale ha.ne' (hg.indicator measurableSet_Ioo), abs_of_pos ha]
  congr 1
  refine lintegral_congr fun u => ?_
  have e : u ∈ Ioo (0 : ℝ) 1 ↔ a * u ∈ Ioo 0 a := by
    simp only [mem_Ioo]
    constructor
    · rintro ⟨h1, h2⟩; exact ⟨by positivity, by nlinarith⟩
    · rintro ⟨h1, h2⟩; exact ⟨pos_of_mul_pos_right h1 ha.le, by nlinarith⟩
  by_cases h : u ∈ Ioo (0 : ℝ) 1
  · rw [indicator_of_mem h, indicator_of_mem (e.1 h), mul_comm]
  · rw [indicator_of_notMem h, indicator_of_notMem fun h' => h (e.2 h')]

/-- uniform numbers stretched to `(-1, 1)` -/
theorem stretch_cos {g : ℝ → ENNReal} (hg : Measurable g) : ∫⁻ x in Ioo (-1) 1, g x = ENNReal.ofReal 2 * ∫⁻ u in Ico 0 1, g (2 * u - 1) := by
  have h := stretch (a := 2) two_pos (g := fun x => g (x - 1)) (by fun_prop)
  have e1 : ∫⁻ x in Ioo (0 : ℝ) 2, g (x - 1) = ∫⁻ x in Ioo (-1) 1, g x := by
    rw [← lintegral_indicator measurableSet_Ioo, ← lintegral_indicator measurableSet_Ioo,
      ← lintegral_sub_right_eq_self ((Ioo (-1 : ℝ) 1).indicator fun x => g x) 1]
    refine lintegral_congr fun x => ?_
    have e : x ∈ Ioo (0 : ℝ) 2 ↔ x - 1 ∈ Ioo (-1 : ℝ) 1 := by
      simp only [mem_Ioo]
      constructor <;> rintro ⟨h1, h2⟩ <;> constructor <;> linarith
    by_cases h : x ∈ Ioo (0 : ℝ) 2
    · rw [indicator_of_mem h, indicator_of_mem (e.1 h)]
    · rw [indicator_of_notMem h, indicator_of_notMem fun h' => h (e.2 h')]
  rw [e1] at h
  rw [h]
  congr 1
  refine lintegral_congr fun u => ?_
  rw [mul_comm u 2]

/-- the integrand at a row -/
def weightAt (χ q : ℝ) (f : ℝ → ENNReal) (t : ℝ × ℝ × ℝ) : ENNReal :=
  ENNReal.ofReal (jacWeight q (rowOf t)) * f (chipDraw χ q (rowOf t))

/-- The acceptance test in terms of the uniform numbers: with `a₁ = a u₁`, `a₂ = a u₂` and `cos θ₂ = 2 u₃ - 1` the cosine that gives the
effective spin `χ` lies in `[-1, 1]`. -/
def PhysDraw (χ q a : ℝ) (u : ℝ × ℝ × ℝ) : Prop := |χ * (1 + q) - q * (a * u.2.1) * (2 * u.2.2 - 1)| ≤ a * u.1

theorem physical_iff {χ q a : ℝ} (ha : 0 < a) {u : ℝ × ℝ × ℝ} (hu : 0 ≤ u.1) : u ∈ acceptSet χ q a ↔ PhysDraw χ q a u := by
  unfold acceptSet PhysDraw unphysical cost1 mkRow uRow
  simp only [Set.mem_setOf_eq, mul_comm _ a]
  generalize χ * (1 + q) - q * (a * u.2.1) * (2 * u.2.2 - 1) = x
  rcases hu.eq_or_lt with h | h
  · rw [← h, mul_zero]
    rw [F.div_fin_zero]
    rcases lt_trichotomy x 0 with hx | rfl | hx
    · simp [F.infOfSign, hx, hx.ne, hx.not_gt, F.lt, F.gt]
    · simp [F.infOfSign, F.lt, F.gt]
    · simp [F.infOfSign, hx, hx.ne', F.lt, F.gt]
  · have hp : 0 < a * u.1 := mul_pos ha h
    rw [F.div_fin hp.ne']
    simp only [F.lt_fin, F.gt_fin, not_or, not_lt, le_div_iff₀ hp, div_le_iff₀ hp, abs_le, one_mul, neg_mul]

theorem cube_ae : ∀ᵐ u ∂unifCube, 0 ≤ u.1 := by
  unfold unifCube
  rw [Measure.prod_restrict, Measure.prod_restrict]
  filter_upwards [ae_restrict_mem (measurableSet_Ico.prod (measurableSet_Ico.prod measurableSet_Ico))] with u hu
  exact hu.1.1

theorem accept_congr {χ q a : ℝ} (ha : 0 < a) (B : Set (ℝ × ℝ × ℝ)) :
    unifCube {u | u ∈ acceptSet χ q a ∧ u ∈ B} = unifCube {u | PhysDraw χ q a u ∧ u ∈ B} := by
  refine measure_congr ?_
  filter_upwards [cube_ae] with u hu
  exact propext (and_congr_left fun _ => physical_iff ha hu)

/-- **C105 (loop).** With independent uniform numbers the rejection loop ends with probability one for every reachable effective spin
`|χ_eff| < a_max`, and each row it hands on has the law of the component spins conditioned on being physical. -/
theorem C105_loop {n : ℕ} {Ω : Type} [MeasurableSpace Ω] {P : Measure Ω} [IsProbabilityMeasure P] {U : ℕ × Fin n → Ω → ℝ × ℝ × ℝ} {χ q a : ℝ}
    (hU : ∀ k, Measurable (U k)) (hind : ProbabilityTheory.iIndepFun U P) (hlaw : ∀ k, P.map (U k) = unifCube) (hq : 0 < q) (hχ : |χ| < a) :
    (∀ᵐ ω ∂P, ∃ k, loopEnds χ q a (streamOf U ω) k) ∧
    ∀ (i : Fin n) (B : Set (ℝ × ℝ × ℝ)), MeasurableSet B →
      P {ω | let r := finalRow χ q a (streamOf U ω) i; (r.a1, r.a2, r.cost2) ∈ B} =
        unifCube {u | PhysDraw χ q a u ∧ (a * u.1, a * u.2.1, 2 * u.2.2 - 1) ∈ B} / unifCube {u | PhysDraw χ q a u} := by
  have ha : 0 < a := (abs_nonneg χ).trans_lt hχ
  obtain ⟨h1, h2⟩ := loop_law (n := n) hU hind hlaw hq hχ
  refine ⟨h1, fun i B hB => (h2 i B hB).trans ?_⟩
  have e1 := accept_congr (χ := χ) (q := q) ha {u | (a * u.1, a * u.2.1, 2 * u.2.2 - 1) ∈ B}
  have e2 := accept_congr (χ := χ) (q := q) ha Set.univ
  simp only [Set.mem_univ, and_true, Set.mem_ofPred_eq] at e1 e2
  rw [← e1, ← e2]
  unfold acceptSet mkRow uRow SpinRow.pt
  simp only [mul_comm _ a, Set.mem_ofPred_eq]

theorem weightAt_measurable (χ q : ℝ) {f : ℝ → ENNReal} (hf : Measurable f) : Measurable (weightAt χ q f) := by
  unfold weightAt
  refine Measurable.mul (by unfold jacWeight rowOf; fun_prop) (hf.comp ?_)
  have e : (fun t : ℝ × ℝ × ℝ => chipDraw χ q (rowOf t)) = fun t => chip q t.1 t.2.1 (if t.1 = 0 then 0 else solveCos χ q t.1 t.2.1 t.2.2) t.2.2 := by
    funext t
    by_cases h : t.1 = 0
    · rw [if_pos h]
      unfold chipDraw cost1 rowOf
      simp only [h]
      rw [F.div_fin_zero]
      congr 1
      unfold F.infOfSign
      split_ifs <;> rfl
    · rw [if_neg h]
      exact chipDraw_eq h
  rw [e]
  have hs : Measurable fun t : ℝ × ℝ × ℝ => if t.1 = 0 then 0 else solveCos χ q t.1 t.2.1 t.2.2 := by
    refine Measurable.ite (measurableSet_eq_fun measurable_fst measurable_const) measurable_const ?_
    unfold solveCos
    fun_prop
  exact (chip_measurable q).comp (show Measurable fun t : ℝ × ℝ × ℝ => (t.1, t.2.1, (if t.1 = 0 then 0 else solveCos χ q t.1 t.2.1 t.2.2), t.2.2) by fun_prop)

theorem cube_iter (ha : 0 < a) {k : ℝ × ℝ × ℝ → ENNReal} (mk : Measurable k) :
    ∫⁻ a1 in Ioo 0 a, ∫⁻ a2 in Ioo 0 a, ∫⁻ c2 in Ioo (-1) 1, k (a1, a2, c2) =
      ENNReal.ofReal (2 * a ^ 2) * ∫⁻ u1 in Ico 0 1, ∫⁻ u2 in Ico 0 1, ∫⁻ u3 in Ico 0 1, k (u1 * a, u2 * a, 2 * u3 - 1) := by
  have c1 : ∀ a1 a2, ∫⁻ c2 in Ioo (-1) 1, k (a1, a2, c2) = ENNReal.ofReal 2 * ∫⁻ u3 in Ico 0 1, k (a1, a2, 2 * u3 - 1) :=
    fun a1 a2 => stretch_cos (g := fun c => k (a1, a2, c)) (mk.comp (by fun_prop))
  have m1 : Measurable fun p : ℝ × ℝ => ∫⁻ u3 in Ico 0 1, k (p.1, p.2, 2 * u3 - 1) := by
    refine Measurable.lintegral_prod_right' (f := fun p : (ℝ × ℝ) × ℝ => k (p.1.1, p.1.2, 2 * p.2 - 1)) ?_
    exact mk.comp (by fun_prop)
  have c2 : ∀ a1, ∫⁻ a2 in Ioo 0 a, ∫⁻ u3 in Ico 0 1, k (a1, a2, 2 * u3 - 1) =
      ENNReal.ofReal a * ∫⁻ u2 in Ico 0 1, ∫⁻ u3 in Ico 0 1, k (a1, u2 * a, 2 * u3 - 1) :=
    fun a1 => stretch ha (g := fun a2 => ∫⁻ u3 in Ico 0 1, k (a1, a2, 2 * u3 - 1)) (m1.comp measurable_prodMk_left)
  have m2 : Measurable fun a1 : ℝ => ∫⁻ u2 in Ico 0 1, ∫⁻ u3 in Ico 0 1, k (a1, u2 * a, 2 * u3 - 1) := by
    refine Measurable.lintegral_prod_right' (f := fun p : ℝ × ℝ => ∫⁻ u3 in Ico 0 1, k (p.1, p.2 * a, 2 * u3 - 1)) ?_
    exact m1.comp (show Measurable fun p : ℝ × ℝ => (p.1, p.2 * a) by fun_prop)
  have c3 : ∀ a1, ∫⁻ a2 in Ioo 0 a, ∫⁻ c2 in Ioo (-1) 1, k (a1, a2, c2) =
      ENNReal.ofReal 2 * (ENNReal.ofReal a * ∫⁻ u2 in Ico 0 1, ∫⁻ u3 in Ico 0 1, k (a1, u2 * a, 2 * u3 - 1)) := by
    intro a1
    rw [← c2, ← lintegral_const_mul' _ _ ENNReal.ofReal_ne_top]
    exact lintegral_congr fun a2 => c1 a1 a2
  have c4 : ∫⁻ a1 in Ioo 0 a, ∫⁻ a2 in Ioo 0 a, ∫⁻ c2 in Ioo (-1) 1, k (a1, a2, c2) =
      ENNReal.ofReal 2 * (ENNReal.ofReal a * (ENNReal.ofReal a * ∫⁻ u1 in Ico 0 1, ∫⁻ u2 in Ico 0 1, ∫⁻ u3 in Ico 0 1, k (u1 * a, u2 * a, 2 * u3 - 1))) := by
    rw [← stretch ha m2, ← lintegral_const_mul' _ _ ENNReal.ofReal_ne_top, ← lintegral_const_mul' _ _ ENNReal.ofReal_ne_top]
    exact lintegral_congr fun a1 => c3 a1
  rw [c4, ← mul_assoc, ← mul_assoc, ← ENNReal.ofReal_mul zero_le_two, ← ENNReal.ofReal_mul (mul_nonneg zero_le_two ha.le)]
  congr 2
  ring

theorem cube_prod {k : ℝ × ℝ × ℝ → ENNReal} (mk : Measurable k) :
    ∫⁻ u, k u ∂unifCube = ∫⁻ u1 in Ico 0 1, ∫⁻ u2 in Ico 0 1, ∫⁻ u3 in Ico 0 1, k (u1, u2, u3) := by
  unfold unifCube
  rw [lintegral_prod _ mk.aemeasurable]
  refine lintegral_congr fun u1 => ?_
  exact lintegral_prod (fun y : ℝ × ℝ => k (u1, y.1, y.2)) (Measurable.aemeasurable (mk.comp measurable_prodMk_left))

theorem cube_integral (ha : 0 < a) {f : ℝ → ENNReal} (hf : Measurable f) :
    ENNReal.ofReal (2 * a ^ 2) * ∫⁻ u in acceptSet χ q a, weightAt χ q f (mkRow a (uRow u)).pt ∂unifCube = weighted q a χ f := by
  have mk : Measurable ((acceptRows χ q).indicator (weightAt χ q f)) := (weightAt_measurable χ q hf).indicator (acceptRows_measurable χ q)
  have e0 : weighted q a χ f = ∫⁻ a1 in Ioo 0 a, ∫⁻ a2 in Ioo 0 a, ∫⁻ c2 in Ioo (-1) 1, (acceptRows χ q).indicator (weightAt χ q f) (a1, a2, c2) := by
    unfold weighted
    refine lintegral_congr fun a1 => lintegral_congr fun a2 => lintegral_congr fun c2 => ?_
    by_cases h : ¬ unphysical (cost1 χ q ⟨a1, a2, c2⟩)
    · rw [if_pos h, indicator_of_mem (show (a1, a2, c2) ∈ acceptRows χ q from h)]; rfl
    · rw [if_neg h, indicator_of_notMem (show ¬ (a1, a2, c2) ∈ acceptRows χ q from h)]
  have e1 : ∫⁻ u in acceptSet χ q a, weightAt χ q f (mkRow a (uRow u)).pt ∂unifCube =
      ∫⁻ u, (acceptRows χ q).indicator (weightAt χ q f) (mkRow a (uRow u)).pt ∂unifCube := by
    rw [← lintegral_indicator (acceptSet_measurable χ q a)]
    refine lintegral_congr fun u => ?_
    by_cases h : u ∈ acceptSet χ q a
    · rw [indicator_of_mem h, indicator_of_mem (show (mkRow a (uRow u)).pt ∈ acceptRows χ q from h)]
    · rw [indicator_of_notMem h, indicator_of_notMem (show ¬ (mkRow a (uRow u)).pt ∈ acceptRows χ q from h)]
  rw [e0, e1, cube_iter ha mk]
  congr 1
  exact cube_prod (mk.comp (scale_measurable a))

/-- **C105 (conditional law).** The weighted average of any quantity of the precession over a row handed on by the loop is its conditional
average given the effective spin: its expectation with weight `(1 + q)/a₁`, times the probability of acceptance and the volume, is the
density of `C105_weights` at `χ`; hence the ratio to the mean weight does not depend on the probability of acceptance. -/
theorem C105_conditional (hU : ∀ k, Measurable (U k)) (hind : ProbabilityTheory.iIndepFun U P) (hlaw : ∀ k, P.map (U k) = unifCube)
    (hq : 0 < q) (hχ : |χ| < a) (i : Fin n) {f : ℝ → ENNReal} (hf : Measurable f) :
    let row := fun ω => finalRow χ q a (streamOf U ω) i
    let mean := fun f : ℝ → ENNReal => ∫⁻ ω, ENNReal.ofReal (jacWeight q (row ω)) * f (chipDraw χ q (row ω)) ∂P
    let dens := fun f : ℝ → ENNReal => ∫⁻ a1 in Ioo 0 a, ∫⁻ a2 in Ioo 0 a, ∫⁻ c2 in Ioo (-1) 1,
      let c1 := (χ * (1 + q) - q * a2 * c2) / a1
      if -1 ≤ c1 ∧ c1 ≤ 1 then ENNReal.ofReal ((1 + q) / a1) * f (chip q a1 a2 c1 c2) else 0
    ENNReal.ofReal (2 * a ^ 2) * unifCube {u | PhysDraw χ q a u} * mean f = dens f ∧
      mean f * dens (fun _ => 1) = dens f * mean (fun _ => 1) := by
  have ha : 0 < a := (abs_nonneg χ).trans_lt hχ
  intro row mean dens
  have hd : ∀ f, dens f = weighted q a χ f := by
    intro f
    unfold weighted
    refine setLIntegral_congr_fun measurableSet_Ioo fun a1 h1 => ?_
    refine lintegral_congr fun a2 => lintegral_congr fun c2 => ?_
    have hc := accepted_iff (χ := χ) (q := q) (a2 := a2) (c2 := c2) h1.1
    unfold solveCos at hc
    simp only [Set.mem_Icc] at hc
    by_cases h : ¬ unphysical (cost1 χ q ⟨a1, a2, c2⟩)
    · simp only [if_pos h, if_pos (hc.1 h), chipDraw_eq h1.1.ne']; rfl
    · simp only [if_neg h, if_neg (mt hc.2 h)]
  have hA := accept_congr (χ := χ) (q := q) ha Set.univ
  simp only [Set.mem_univ, and_true, Set.ofPred_mem_eq] at hA
  simp only [hd]
  rw [← hA]
  have key : ∀ {f : ℝ → ENNReal}, Measurable f → ENNReal.ofReal (2 * a ^ 2) * unifCube (acceptSet χ q a) * mean f = weighted q a χ f := by
    intro f hf
    have e1 : mean f = ∫⁻ t, weightAt χ q f t ∂(P.map fun ω => (finalRow χ q a (streamOf U ω) i).pt) := by
      rw [lintegral_map (weightAt_measurable χ q hf) (final_measurable hU χ q a i)]
      rfl
    rw [e1, final_law hU hind hlaw hq hχ i, lintegral_smul_measure, lintegral_map (weightAt_measurable χ q hf) (scale_measurable a), smul_eq_mul,
      mul_assoc, ← mul_assoc (unifCube _), ENNReal.mul_inv_cancel (accept_pos hq hχ) (measure_ne_top _ _), one_mul, cube_integral ha hf]
  refine ⟨key hf, ?_⟩
  rw [← key hf, ← key (f := fun _ => 1) measurable_const]
  ring

end law

/-! ## the joint density -/

theorem gaussKde_pos {n : ℕ} (hn : 0 < n) {h : ℝ} (hh : h ≠ 0) {xs ws : Fin n → ℝ} (hw : ∀ i, 0 < ws i) (x : ℝ) : 0 < gaussKde h xs ws x := by
  haveI : Nonempty (Fin n) := ⟨⟨0, hn⟩⟩
  unfold gaussKde
  have h2 : 0 < h ^ 2 := by positivity
  have := Real.pi_pos
  exact div_pos (div_pos (Finset.sum_pos (fun i _ => mul_pos (hw i) (Real.exp_pos _)) Finset.univ_nonempty)
    (Finset.sum_pos (fun i _ => hw i) Finset.univ_nonempty)) (Real.sqrt_pos.2 (by positivity))

/-- **C105 (joint density).** For every set of accepted draws with `a₁ > 0`, every kernel width and every precession the returned joint
density is a number; as a function of the precession it is non-negative, zero outside `(0, max χ_p)`, and it integrates to the density of
the effective spin, so its marginal is exact whatever the draws.  (The three effective spins in `hb` are the ends of the analytic cases, and
`max χ_p` is positive.) -/
theorem C105_joint {n : ℕ} (hn : 0 < n) (depth : ℕ) {χ q a h m : ℝ} (hq : 0 < q) (hq1 : q ≤ 1) (ha : 0 < a) (hh : h ≠ 0)
    (hb : |χ| ∉ [a * (1 - q) / (1 + q), a / (1 + q), q * a / (1 + q)]) (hm : maxChiP χ q a = some m) (hm0 : 0 < m)
    {rows : Fin n → SpinRow} (hr : ∀ i, 0 < (rows i).a1) :
    ∃ p : ℝ → ℝ, (∀ y, jointPrior dilog (depth + 1) h rows y χ q a = .ok (F.fin (p y))) ∧ (∀ y, 0 ≤ p y) ∧
      (∀ y, y ≤ 0 ∨ m ≤ y → p y = 0) ∧ isotropicPrior dilog (depth + 1) χ q a = .ok (F.fin (∫ y in (0 : ℝ)..m, p y)) := by
  have hk := fun x => gaussKde_pos hn hh (xs := fun i => chipDraw χ q (rows i)) (ws := fun i => jacWeight q (rows i))
    (fun i => div_pos (by linarith) (hr i)) x
  obtain ⟨d1, d2, d3⟩ := C63_density hm0 (fun x => (hk x).le) ⟨0, by norm_num, hk _⟩
  have hi := C93_density depth hq hq1 ha hb
  have hin : 0 ≤ isoDensity χ q a :=
    mul_nonneg (by linarith) (integral_nonneg fun s => mul_nonneg (zDensity_nonneg ha _) (zDensity_nonneg (by positivity) _))
  refine ⟨fun y => isoDensity χ q a * chipGiven (gaussKde h (fun i => chipDraw χ q (rows i)) fun i => jacWeight q (rows i)) m y, fun y => ?_,
    fun y => mul_nonneg hin (d1 y), fun y hy => mul_eq_zero_of_right _ (d2 y hy), ?_⟩
  · unfold jointPrior chipGivenRows
    rw [hi, hm]
    simp
  · rw [intervalIntegral.integral_const_mul, d3, mul_one, hi]

/-! ## the hypotheses are met -/

/-- independent uniform draws exist -/
example (n : ℕ) : ∃ (Ω : Type) (_ : MeasurableSpace Ω) (P : Measure Ω) (U : ℕ × Fin n → Ω → ℝ × ℝ × ℝ), IsProbabilityMeasure P ∧
    (∀ k, Measurable (U k)) ∧ ProbabilityTheory.iIndepFun U P ∧ ∀ k, P.map (U k) = unifCube := by
  have : IsProbabilityMeasure unifCube := by
    have := unif_prob
    unfold unifCube
    infer_instance
  refine ⟨(ℕ × Fin n) → ℝ × ℝ × ℝ, inferInstance, Measure.infinitePi fun _ => unifCube, fun k ω => ω k, inferInstance,
    fun k => measurable_pi_apply k, ?_, fun k => ?_⟩
  · exact ProbabilityTheory.iIndepFun_infinitePi (X := fun _ x => x) fun _ => measurable_id
  · exact Measure.infinitePi_map_eval (fun _ => unifCube) k

example : maxChiP 0.1 0.5 1 = some 1 ∧ |(0.1 : ℝ)| ∉ [1 * (1 - 0.5) / (1 + 0.5), 1 / (1 + 0.5), 0.5 * 1 / (1 + (0.5 : ℝ))] := by
  refine ⟨?_, ?_⟩
  · unfold maxChiP
    rw [if_pos (by rw [abs_of_pos] <;> norm_num)]
  · rw [abs_of_pos (by norm_num)]
    norm_num

end GW
end
