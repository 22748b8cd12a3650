import Verif.Model.Parametric
import Mathlib.Analysis.SpecialFunctions.Pow.Real

/-! # Property C39: the power-law redshift model -/

open Finset
noncomputable section
open Classical
namespace GW
open F

/-- Specification: `d` is the truncated density proportional to `dV(z) (1+z)^(lamb-1)` normalised to unit trapezoid
integral on the 1000-point grid from `a` to `b`. -/
structure IsZDensity (dV : ℝ → ℝ) (lamb a b : ℝ) (d : ℝ → ℝ) : Prop where
  shape : ∃ c : ℝ, 0 < c ∧ ∀ z, d z = c * (dV z * (1 + z) ^ (lamb - 1))
  unit : trapz 1000 (fun i => d ((linspace a b 1000).get i)) (linspace a b 1000).get = 1

/-- Inputs for which the model is meant: overlapping data ranges, redshifts above -1, a volume element that is
non-negative everywhere and positive inside the overlap. -/
structure ZModel.OK (m : ZModel) : Prop where
  overlap : m.zmin < m.zmax
  above : -1 < m.zmin
  nonneg : ∀ z, 0 ≤ m.dV z
  pos : ∀ z, m.zmin < z → z ≤ m.zmax → 0 < m.dV z

theorem linspace_mem {a b : ℝ} (h : a < b) {i : ℕ} (hi : i < 1000) :
    a ≤ (linspace a b 1000).get i ∧ (linspace a b 1000).get i ≤ b := by
  simp only [linspace]
  have h1 : (0:ℝ) ≤ i := Nat.cast_nonneg i
  have h2 : (i:ℝ) ≤ 999 := by exact_mod_cast (by omega : i ≤ 999)
  have e : (i:ℝ) * ((b - a) / ((1000:ℕ) - 1)) = (i / 999) * (b - a) := by push_cast; ring
  rw [e]
  have h3 : (i:ℝ) / 999 ≤ 1 := by rw [div_le_one (by norm_num)]; exact h2
  have h4 : (0:ℝ) ≤ i / 999 := by positivity
  constructor <;> nlinarith

theorem ZModel.norm_pos {m : ZModel} (h : m.OK) (lamb : ℝ) : 0 < m.normalization lamb := by
  unfold ZModel.normalization trapz
  have hlen : m.zs.len = 1000 := rfl
  rw [hlen]
  have hstep : ∀ i : ℕ, m.zs.get (i + 1) - m.zs.get i = (m.zmax - m.zmin) / 999 := by
    intro i; simp only [ZModel.zs, linspace]; push_cast; ring
  have ho := h.overlap
  have hd : 0 < (m.zmax - m.zmin) / 999 := by linarith
  have mem : ∀ i < 1000, m.zmin ≤ m.zs.get i ∧ m.zs.get i ≤ m.zmax := fun i hi => linspace_mem ho hi
  have nn : ∀ i < 1000, 0 ≤ ZModel.prob (m.zs.get i) (m.dV (m.zs.get i)) lamb := by
    intro i hi
    have := (mem i hi).1
    exact mul_nonneg (h.nonneg _) (Real.rpow_nonneg (by linarith [h.above]) _)
  have pp : ∀ i < 1000, 0 < i → 0 < ZModel.prob (m.zs.get i) (m.dV (m.zs.get i)) lamb := by
    intro i hi hi0
    have hz : m.zmin < m.zs.get i := by
      simp only [ZModel.zs, linspace]
      have : (0:ℝ) < i := by exact_mod_cast hi0
      have : 0 < (i:ℝ) * ((m.zmax - m.zmin) / ((1000:ℕ) - 1)) := by
        apply mul_pos this; push_cast; apply div_pos (by linarith) (by norm_num)
      linarith
    exact mul_pos (h.pos _ hz (mem i hi).2) (Real.rpow_pos_of_pos (by linarith [h.above]) _)
  have : 0 < ∑ i ∈ range (1000 - 1), (m.zs.get (i + 1) - m.zs.get i) *
      (ZModel.prob (m.zs.get (i + 1)) (m.dV (m.zs.get (i + 1))) lamb + ZModel.prob (m.zs.get i) (m.dV (m.zs.get i)) lamb) := by
    apply sum_pos
    · intro i hi
      have hi' := mem_range.1 hi
      rw [hstep]
      exact mul_pos hd (add_pos_of_pos_of_nonneg (pp _ (by omega) (by omega)) (nn i (by omega)))
    · exact ⟨0, by simp⟩
  linarith

/-- **C39.** On both data sets the model evaluates one and the same function `d` of redshift: the density proportional
to `dV/dz (1+z)^(lamb-1)` with unit trapezoid integral on the model's 1000-point grid.  Samples above `zmax` get
exactly 0 (log density: the most negative finite number); at or below `zmax` the value is `d z`, and the log density
is its logarithm wherever it is positive. -/
theorem C39_redshift_model (m : ZModel) (h : m.OK) (lamb : ℝ) :
    ∃ d : ℝ → ℝ, IsZDensity m.dV lamb m.zmin m.zmax d ∧
      ∀ (twoD : Bool) (i : ℕ), -1 < (if twoD then m.zpe else m.zinj).get i →
        ((if twoD then m.zpe else m.zinj).get i ≤ m.zmax →
          m.call twoD (if twoD then m.zpe else m.zinj) lamb i = fin (d ((if twoD then m.zpe else m.zinj).get i)) ∧
          (0 < m.dV ((if twoD then m.zpe else m.zinj).get i) →
            0 < d ((if twoD then m.zpe else m.zinj).get i) ∧
            m.logProb twoD (if twoD then m.zpe else m.zinj) lamb i
              = fin (Real.log (d ((if twoD then m.zpe else m.zinj).get i)))) ∧
          (m.dV ((if twoD then m.zpe else m.zinj).get i) = 0 →
            m.logProb twoD (if twoD then m.zpe else m.zinj) lamb i = ninf)) ∧
        (m.zmax < (if twoD then m.zpe else m.zinj).get i →
          m.call twoD (if twoD then m.zpe else m.zinj) lamb i = fin 0 ∧
          m.logProb twoD (if twoD then m.zpe else m.zinj) lamb i = fin (-F.BIG)) := by
  have hn := ZModel.norm_pos h lamb
  refine ⟨fun z => ZModel.prob z (m.dV z) lamb / m.normalization lamb, ⟨⟨1 / m.normalization lamb, by positivity, ?_⟩, ?_⟩, ?_⟩
  · intro z; simp only [ZModel.prob]; ring
  · rw [trapz_div]
    exact div_self hn.ne'
  · intro twoD i hz
    set z := (if twoD then m.zpe else m.zinj).get i with hzdef
    have hdv : m.dVdz twoD i = m.dV z := by
      cases twoD <;> rfl
    constructor
    · intro hle
      have hp : 0 < (1 + z) ^ (lamb - 1) := Real.rpow_pos_of_pos (by linarith) _
      refine ⟨?_, ?_, ?_⟩
      · unfold ZModel.call
        rw [if_pos hle, div_fin hn.ne', hdv, ← hzdef]
      · intro hd
        have hpr : 0 < ZModel.prob z (m.dV z) lamb := mul_pos hd hp
        refine ⟨div_pos hpr hn, ?_⟩
        unfold ZModel.logProb
        rw [if_pos hle, hdv, ← hzdef, log_fin hd, one_def, add_fin, log_fin (by linarith), mul_fin, log_fin hn, add_fin,
          sub_fin, Real.log_div hpr.ne' hn.ne']
        unfold ZModel.prob
        rw [Real.log_mul hd.ne' hp.ne', Real.log_rpow (by linarith)]
      · intro hd
        unfold ZModel.logProb
        rw [if_pos hle, hdv, ← hzdef, hd, log_zero, one_def, add_fin, log_fin (by linarith), mul_fin, log_fin hn]
        rfl
    · intro hgt
      unfold ZModel.call ZModel.logProb
      rw [if_neg (not_le.2 hgt), if_neg (not_le.2 hgt)]
      exact ⟨rfl, rfl⟩

/-- There is no truncation *below* the normalisation range: a sample with `z < zmin` (which one of the two data sets
has whenever their minima differ) still gets a positive density, although the normalisation integral starts at `zmin`. -/
theorem C39_below_range_fails (m : ZModel) (h : m.OK) (lamb : ℝ) (twoD : Bool) (i : ℕ)
    (hz : -1 < (if twoD then m.zpe else m.zinj).get i) (hlow : (if twoD then m.zpe else m.zinj).get i < m.zmin)
    (hd : 0 < m.dV ((if twoD then m.zpe else m.zinj).get i)) :
    ∃ v : ℝ, 0 < v ∧ m.call twoD (if twoD then m.zpe else m.zinj) lamb i = fin v := by
  obtain ⟨d, -, hcall⟩ := C39_redshift_model m h lamb
  obtain ⟨h1, -⟩ := hcall twoD i hz
  obtain ⟨h2, h3, -⟩ := h1 (hlow.le.trans h.overlap.le)
  exact ⟨_, (h3 hd).1, h2⟩

/-- The volume element is remembered by position from construction: evaluating on any other 1-D array `z` of the same
length mixes the stored `dV(z_inj[i])` with the new `z[i]` — the value differs from the density at `z[i]` whenever the
two volume elements differ. -/
theorem C39_other_array_fails (m : ZModel) (h : m.OK) (lamb : ℝ) (z : Arr ℝ) (i : ℕ) (hz : -1 < z.get i)
    (hle : z.get i ≤ m.zmax) (hne : m.dV (z.get i) ≠ m.dV (m.zinj.get i)) :
    m.call false z lamb i ≠ fin (ZModel.prob (z.get i) (m.dV (z.get i)) lamb / m.normalization lamb) := by
  have hn := ZModel.norm_pos h lamb
  have hp : 0 < (1 + z.get i) ^ (lamb - 1) := Real.rpow_pos_of_pos (by linarith) _
  unfold ZModel.call
  rw [if_pos hle, div_fin hn.ne']
  simp only [ne_eq, fin_inj, ZModel.dVdz, Bool.false_eq_true, if_false]
  intro hc
  rw [div_left_inj' hn.ne'] at hc
  exact hne (mul_right_cancel₀ hp.ne' hc).symm

/-- a model meeting the hypotheses: PE redshifts 0.1, 0.5, injections 0.2, 0.9, volume element `z²` -/
def exampleZ : ZModel := ⟨fun z => z ^ 2, ⟨2, fun i => if i = 0 then 1/10 else 1/2⟩, ⟨2, fun i => if i = 0 then 1/5 else 9/10⟩⟩

theorem exampleZ_OK : exampleZ.OK := by
  have e1 : exampleZ.zmin = 1/5 := by
    simp [exampleZ, ZModel.zmin, arrMin, List.range_succ]; norm_num
  have e2 : exampleZ.zmax = 1/2 := by
    simp [exampleZ, ZModel.zmax, arrMax, List.range_succ]; norm_num
  refine ⟨by rw [e1, e2]; norm_num, by rw [e1]; norm_num, fun z => sq_nonneg z, fun z hz _ => ?_⟩
  rw [e1] at hz
  have : (0:ℝ) < z := by linarith
  simp only [exampleZ]; positivity

end GW
end
