import Verif.Model.RoundingParametric
import Verif.Props.RoundingPopulation
import Verif.Props.RoundingTruncnorm

/-! # Property C147: the parametric densities in rounded arithmetic -/

open Finset
noncomputable section
open Classical
namespace GW
open F

variable {f : Arith} {κ : ℝ}

/-! ### the power law with simple ranges -/

theorem rpow_range {x y c : ℝ} {a b : ℕ} (hx0 : (2⁻¹:ℝ) ^ a ≤ x) (hx1 : x ≤ 2 ^ a) (hy : |y| ≤ c) (hab : a * c ≤ b) : (2⁻¹:ℝ) ^ b ≤ x ^ y ∧ x ^ y ≤ 2 ^ b := by
  have hx : 0 < x := lt_of_lt_of_le (by positivity) hx0
  have h2 : (0:ℝ) < Real.log 2 := Real.log_pos (by norm_num)
  have l1 : Real.log x ≤ a * Real.log 2 := by
    rw [← Real.log_pow]; exact Real.log_le_log hx hx1
  have l2 : -(a * Real.log 2) ≤ Real.log x := by
    have := Real.log_le_log (by positivity) hx0
    rwa [Real.log_pow, Real.log_inv, mul_neg] at this
  have l3 : |Real.log x| ≤ a * Real.log 2 := abs_le.2 ⟨l2, l1⟩
  have l4 : |Real.log x * y| ≤ b * Real.log 2 := by
    rw [abs_mul]
    calc |Real.log x| * |y| ≤ (a * Real.log 2) * c := mul_le_mul l3 hy (abs_nonneg _) (by positivity)
      _ = (a * c) * Real.log 2 := by ring
      _ ≤ b * Real.log 2 := mul_le_mul_of_nonneg_right hab h2.le
  rw [abs_le] at l4
  rw [Real.rpow_def_of_pos hx]
  have e : (2:ℝ) ^ b = Real.exp (b * Real.log 2) := by rw [← Real.log_pow, Real.exp_log (by positivity)]
  rw [inv_pow, e, ← Real.exp_neg]
  exact ⟨Real.exp_le_exp.2 l4.1, Real.exp_le_exp.2 l4.2⟩

theorem abs_log_le_five {x : ℝ} (h0 : (2⁻¹:ℝ) ^ 7 ≤ x) (h1 : x ≤ 2 ^ 7) : |Real.log x| ≤ 5 := by
  have hx : 0 < x := lt_of_lt_of_le (by positivity) h0
  have h2 := Real.log_two_lt_d9
  have a := Real.log_le_log hx h1
  have b := Real.log_le_log (by positivity) h0
  rw [Real.log_pow] at a b
  rw [Real.log_inv] at b
  push_cast at a b
  exact abs_le.2 ⟨by linarith, by linarith⟩

/-- error of the power law in units of the rounding unit, for slope `α = s - 1` and `Λ = log (high / low)` -/
def plErr (s Λ : ℝ) : ℝ := 9 + 4 * (1 + 5 * |s|) * (1 + 2 / (|s| * Λ))

/-- the exact density -/
def plDensity (x α l h : ℝ) : ℝ := x ^ α * ((1 + α) / (h ^ (1 + α) - l ^ (1 + α)))

/-- numbers for which the power law is harmless: bounds within a factor 128 of one and not closer than a factor `exp (1/256)`, slope between -7 and 5 but not within 1/256 of -1 -/
structure PLRange (α l h : ℝ) : Prop where
  low : (2⁻¹:ℝ) ^ 7 ≤ l
  high : h ≤ 2 ^ 7
  gap : (2⁻¹:ℝ) ^ 8 ≤ Real.log (h / l)
  slope : |1 + α| ≤ 6
  slope0 : (2⁻¹:ℝ) ^ 8 ≤ |1 + α|

theorem PLRange.lt {α l h : ℝ} (r : PLRange α l h) (h0 : 0 < h) : l < h := by
  have l0 : 0 < l := lt_of_lt_of_le (by positivity) r.low
  by_contra hc
  have : Real.log (h / l) ≤ 0 := Real.log_nonpos (div_nonneg h0.le l0.le) ((div_le_one l0).2 (not_lt.1 hc))
  have := r.gap
  have : (0:ℝ) < 2⁻¹ ^ 8 := by positivity
  linarith

/-- sizes of the intermediate numbers -/
theorem PLRange.sizes {α l h : ℝ} (r : PLRange α l h) (h0 : 0 < h) :
    ((2⁻¹:ℝ) ^ 42 ≤ l ^ (1 + α) ∧ l ^ (1 + α) ≤ 2 ^ 42) ∧ ((2⁻¹:ℝ) ^ 42 ≤ h ^ (1 + α) ∧ h ^ (1 + α) ≤ 2 ^ 42) ∧
    ((2⁻¹:ℝ) ^ 60 ≤ |h ^ (1 + α) - l ^ (1 + α)| ∧ |h ^ (1 + α) - l ^ (1 + α)| ≤ 2 ^ 43) ∧
    ((2⁻¹:ℝ) ^ 51 ≤ (1 + α) / (h ^ (1 + α) - l ^ (1 + α)) ∧ (1 + α) / (h ^ (1 + α) - l ^ (1 + α)) ≤ 2 ^ 63) := by
  have l0 : 0 < l := lt_of_lt_of_le (by positivity) r.low
  have hlh := r.lt h0
  have a := rpow_range (b := 42) r.low (hlh.le.trans r.high) r.slope (by norm_num)
  have b := rpow_range (b := 42) (r.low.trans hlh.le) r.high r.slope (by norm_num)
  have hs : 1 + α ≠ 0 := by
    intro h; have := r.slope0; rw [h, abs_zero] at this
    have : (0:ℝ) < 2⁻¹ ^ 8 := by positivity
    linarith
  have hlog : 0 < Real.log (h / l) := lt_of_lt_of_le (by positivity) r.gap
  have c := cancellation l0 hlh hs
  have hden : (2⁻¹:ℝ) ^ 16 ≤ |1 + α| * Real.log (h / l) := by
    calc (2⁻¹:ℝ) ^ 16 = 2⁻¹ ^ 8 * 2⁻¹ ^ 8 := by norm_num
      _ ≤ _ := mul_le_mul r.slope0 r.gap (by positivity) (abs_nonneg _)
  have hfac : 1 + 2 / (|1 + α| * Real.log (h / l)) ≤ 2 ^ 18 := by
    have : 2 / (|1 + α| * Real.log (h / l)) ≤ 2 ^ 17 := by
      rw [div_le_iff₀ (lt_of_lt_of_le (by positivity) hden)]
      calc (2:ℝ) = 2 ^ 17 * 2⁻¹ ^ 16 := by norm_num
        _ ≤ _ := mul_le_mul_of_nonneg_left hden (by positivity)
    linarith [show (2:ℝ) ^ 17 + 1 ≤ 2 ^ 18 by norm_num]
  have hD0 := abs_nonneg (h ^ (1 + α) - l ^ (1 + α))
  have d1 : (2⁻¹:ℝ) ^ 60 ≤ |h ^ (1 + α) - l ^ (1 + α)| := by
    have : (2⁻¹:ℝ) ^ 42 ≤ 2 ^ 18 * |h ^ (1 + α) - l ^ (1 + α)| := by
      have := mul_le_mul_of_nonneg_right hfac hD0
      linarith [a.1, b.1]
    have e : (2⁻¹:ℝ) ^ 60 = 2⁻¹ ^ 42 / 2 ^ 18 := by norm_num
    rw [e, div_le_iff₀ (by positivity)]; linarith
  have d2 : |h ^ (1 + α) - l ^ (1 + α)| ≤ 2 ^ 43 := by
    refine (abs_sub _ _).trans ?_
    rw [abs_of_pos (lt_of_lt_of_le (by positivity) a.1), abs_of_pos (lt_of_lt_of_le (by positivity) b.1)]
    linarith [a.2, b.2, show (2:ℝ) ^ 42 + 2 ^ 42 = 2 ^ 43 by norm_num]
  have hpos : 0 < (1 + α) / (h ^ (1 + α) - l ^ (1 + α)) := by
    rcases lt_or_gt_of_ne hs with h1 | h1
    · exact div_pos_of_neg_of_neg h1 (sub_neg.2 (Real.rpow_lt_rpow_of_neg l0 hlh h1))
    · exact div_pos h1 (sub_pos.2 (Real.rpow_lt_rpow l0.le hlh h1))
  have hDp : 0 < |h ^ (1 + α) - l ^ (1 + α)| := lt_of_lt_of_le (by positivity) d1
  refine ⟨a, b, ⟨d1, d2⟩, ?_, ?_⟩
  · rw [← abs_of_pos hpos, abs_div, le_div_iff₀ hDp]
    refine le_trans ?_ r.slope0
    calc (2⁻¹:ℝ) ^ 51 * |h ^ (1 + α) - l ^ (1 + α)| ≤ 2⁻¹ ^ 51 * 2 ^ 43 := mul_le_mul_of_nonneg_left d2 (by positivity)
      _ = 2⁻¹ ^ 8 := by norm_num
  · rw [← abs_of_pos hpos, abs_div, div_le_iff₀ hDp]
    refine r.slope.trans ?_
    calc (6:ℝ) ≤ 2 ^ 63 * 2⁻¹ ^ 60 := by norm_num
      _ ≤ _ := mul_le_mul_of_nonneg_left d1 (by positivity)

theorem PLRange.density {α l h x : ℝ} (r : PLRange α l h) (hlx : l ≤ x) (hxh : x ≤ h) : ((2⁻¹:ℝ) ^ 49 ≤ x ^ α ∧ x ^ α ≤ 2 ^ 49) ∧ (2⁻¹:ℝ) ^ 100 ≤ plDensity x α l h ∧ plDensity x α l h ≤ 2 ^ 112 := by
  have l0 : 0 < l := lt_of_lt_of_le (by positivity) r.low
  have hα : |α| ≤ 7 := by
    have := r.slope
    rw [abs_le] at this ⊢
    constructor <;> linarith
  have a := rpow_range (b := 49) (r.low.trans hlx) (hxh.trans r.high) hα (by norm_num)
  obtain ⟨-, -, -, b1, b2⟩ := r.sizes (l0.trans_le (hlx.trans hxh))
  refine ⟨a, ?_, ?_⟩
  · calc (2⁻¹:ℝ) ^ 100 = 2⁻¹ ^ 49 * 2⁻¹ ^ 51 := by norm_num
      _ ≤ _ := mul_le_mul a.1 b1 (by positivity) (le_trans (by positivity) a.1)
  · calc plDensity x α l h ≤ 2 ^ 49 * 2 ^ 63 := mul_le_mul a.2 b2 (le_trans (by positivity) b1) (by positivity)
      _ = 2 ^ 112 := by norm_num

theorem normal3_abs {y : ℝ} (h1 : (2⁻¹:ℝ) ^ 120 ≤ |y|) (h2 : |y| ≤ 2 ^ 120) : Normal3 y := normal3_of h1 h2

/-- C140 with simple ranges -/
theorem Arith.Contract.powerlaw {pw : F → F → F} (C : f.Contract κ) (P : PowContract pw κ) {x α l h : ℝ} (r : PLRange α l h) (hlx : l ≤ x) (hxh : x ≤ h) (hε : κ * plErr (1 + α) (Real.log (h / l)) ≤ 1) :
    ∃ p, powerlaw_pdfR f pw (fin x) (fin α) (fin l) (fin h) = fin p ∧ Within (κ * plErr (1 + α) (Real.log (h / l))) (plDensity x α l h) p := by
  have l0 : 0 < l := lt_of_lt_of_le (by positivity) r.low
  have h0 : 0 < h := l0.trans_le (hlx.trans hxh)
  have hlh := r.lt h0
  obtain ⟨a, b, c, d⟩ := r.sizes h0
  obtain ⟨e, g⟩ := r.density hlx hxh
  have hs : 1 + α ≠ 0 := by
    intro h; have := r.slope0; rw [h, abs_zero] at this
    have : (0:ℝ) < 2⁻¹ ^ 8 := by positivity
    linarith
  have N : ∀ {y : ℝ} {m n : ℕ}, (2⁻¹:ℝ) ^ m ≤ y → y ≤ 2 ^ n → m ≤ 120 → n ≤ 120 → Normal3 y := by
    intro y m n h1 h2 h3 h4
    refine normal3_pos h1 h2 ?_ ?_
    · exact pow_le_pow_of_le_one (by norm_num) (by norm_num) h3
    · exact pow_le_pow_right₀ (by norm_num) h4
  have E : κ * plErr (1 + α) (Real.log (h / l)) = 9 * κ + 4 * κ * (1 + |1 + α| * 5) * (1 + 2 / (|1 + α| * Real.log (h / l))) := by unfold plErr; ring
  have key := C140_error C P (x := x) (α := α) (l := l) (h := h) (L := 5) (le_trans (by unfold flLo; norm_num) r.low) hlh (r.high.trans (by unfold flHi; norm_num)) hlx hxh hs
    (abs_log_le_five r.low (hlh.le.trans r.high)) (abs_log_le_five (r.low.trans hlh.le) r.high) (N e.1 e.2 (by norm_num) (by norm_num))
    (normal3_of (le_trans (by norm_num) r.slope0) (r.slope.trans (by norm_num))) (N a.1 a.2 (by norm_num) (by norm_num)) (N b.1 b.2 (by norm_num) (by norm_num))
    (normal3_of (le_trans (by norm_num) c.1) (c.2.trans (by norm_num))) (N d.1 d.2 (by norm_num) (by norm_num)) (N g.1 g.2 (by norm_num) (by norm_num)) (by rw [← E]; exact hε)
  rw [E]; exact key

/-! ### mixtures -/

/-- a mixture with weight `lam` of two densities, the second one known up to a factor and an amount that is negligible against the mixture -/
theorem Arith.Contract.mix_terms (C : f.Contract κ) {A B b d t1 lam ε ε1 η : ℝ} (hlam0 : 0 ≤ lam) (hlam1 : lam ≤ 1) (hε0 : 0 ≤ ε) (hε1 : ε1 ≤ ε) (hA0 : 0 ≤ A) (h1 : f.r (fin d) = fin t1) (hd : Rel ε1 A t1)
    (hB0 : 0 ≤ B) (hη0 : 0 ≤ η) (hb : Near ε η B b) (hbb : |b| ≤ flHi)
    (hT0 : (2⁻¹:ℝ) ^ 60 ≤ A + lam * B) (hT1 : A + lam * B ≤ 2 ^ 120) (hsmall : 12 * η ≤ κ * (A + lam * B)) (he : ε + 6 * κ ≤ 1) :
    ∃ p, f.r (f.r (fin d) + f.r (fin lam * fin b)) = fin p ∧ Within (ε + 6 * κ) (A + lam * B) p := by
  have hκ := C.pos
  have hk : 1000 * κ ≤ 1 := by have := C.small; norm_num at this ⊢; linarith
  have hlb : Near ε η (lam * B) (lam * b) := by
    have m1 := mul_le_mul_of_nonneg_left hb.1 hlam0
    have m2 := mul_le_mul_of_nonneg_left hb.2 hlam0
    have m3 : lam * η ≤ 1 * η := mul_le_mul_of_nonneg_right hlam1 hη0
    constructor
    · calc Real.exp (-ε) * (lam * B) - η ≤ lam * (Real.exp (-ε) * B - η) := by linarith [show lam * (Real.exp (-ε) * B - η) = Real.exp (-ε) * (lam * B) - lam * η by ring]
        _ ≤ _ := m1
    · refine m2.trans ?_
      linarith [show lam * (Real.exp ε * B + η) = Real.exp ε * (lam * B) + lam * η by ring]
  have hlB0 : 0 ≤ lam * B := mul_nonneg hlam0 hB0
  have hbig : |lam * b| ≤ flHi := by
    rw [abs_mul, abs_of_nonneg hlam0]
    exact (mul_le_of_le_one_left (abs_nonneg b) hlam1).trans hbb
  obtain ⟨t2, et2, nt2⟩ := C.rd_near hε0 hη0 hlB0 hbig hlb
  have n1 : Near (ε + 2 * κ) 0 A t1 := ((hd.mono hε1).within hA0).near le_rfl |>.mono (by linarith) le_rfl hA0
  have n := n1.add nt2
  have hTp : 0 < A + lam * B := lt_of_lt_of_le (by positivity) hT0
  have hflo : 100 * flLo ≤ κ * (A + lam * B) := by
    have : (2⁻¹:ℝ) ^ 50 * (2⁻¹) ^ 60 ≤ κ * (A + lam * B) := mul_le_mul C.tiny hT0 (by positivity) hκ.le
    exact le_trans (by unfold flLo; norm_num) this
  have hl0 := flLo_pos
  have hκη : κ * η ≤ η / 1000 := by
    have := mul_le_mul_of_nonneg_right hk hη0
    linarith
  have hκη0 : 0 ≤ κ * η := by positivity
  have w := n.within (u := 2 * κ) (by linarith) (by linarith) (by linarith) (by linarith) (by linarith) hTp
  obtain ⟨p, ep, rp⟩ := C.rel_round (Rel.of_within hTp w) (by linarith) (le_trans (by norm_num) hT0) (hT1.trans (by norm_num))
  refine ⟨p, ?_, ?_⟩
  · rw [h1, mul_fin]
    show f.r (fin t1 + f.rd (lam * b)) = _
    rw [et2, add_fin]; exact ep
  · exact (rp.within hTp.le).mono (by linarith) hTp.le

/-! ### the truncated normal, tails included -/

/-- the exact density -/
def tnDensity (x mu sig low high : ℝ) : ℝ :=
  Real.exp (-((x - mu) * (x - mu)) / (2 * (sig * sig))) * (1 / (sig * Real.sqrt (2 * Real.pi)) / (gcdf mu sig high - gcdf mu sig low))

/-- the probability of the interval before truncation -/
def tnMass (mu sig low high : ℝ) : ℝ := gcdf mu sig high - gcdf mu sig low

theorem tnDensity_nonneg {x mu sig low high : ℝ} (s0 : 0 < sig) (hlh : low < high) : 0 ≤ tnDensity x mu sig low high := by
  have hP : 0 < gcdf mu sig high - gcdf mu sig low := sub_pos.2 (gcdf_strictMono s0 hlh)
  unfold tnDensity; positivity

theorem exp_tail : Real.exp (-(63 / 2)) ≤ 2⁻¹ ^ 45 := by
  have h1 : Real.exp (63 / 2) ^ 2 = Real.exp 1 ^ 63 := by rw [← Real.exp_nat_mul, ← Real.exp_nat_mul]; norm_num
  have h2 : ((2:ℝ) ^ 45) ^ 2 ≤ Real.exp (63 / 2) ^ 2 := by
    rw [h1]
    have : (2.718:ℝ) ≤ Real.exp 1 := by have := Real.exp_one_gt_d9; linarith
    exact le_trans (by norm_num) (pow_le_pow_left₀ (by norm_num) this 63)
  have h3 := le_of_sq_le_sq h2 (Real.exp_pos _).le
  rw [Real.exp_neg, inv_pow]
  exact inv_anti₀ (by positivity) h3

/-- **C147** (truncated normal).  C142 without the restriction to eight standard deviations: further out both the exact and the computed density are negligible. -/
theorem C147_truncnorm (C : f.Contract κ) {erf' : F → F} (E : ErfContract erf' κ) {x mu sig low high : ℝ} (hs0 : 2⁻¹ ^ 25 ≤ sig) (hs1 : sig ≤ 2 ^ 25)
    (hx : Moderate (x - mu)) (hl : Moderate (low - mu)) (hh : Moderate (high - mu)) (hlh : low < high) (hlx : low ≤ x) (hxh : x ≤ high)
    (hε : κ * (781 + 40 / tnMass mu sig low high) ≤ 1) :
    ∃ p, truncnorm_pdfR f erf' (fin x) (fin mu) (fin sig) (fin low) (fin high) = fin p ∧
      Near (κ * (781 + 40 / tnMass mu sig low high)) (2⁻¹ ^ 44 / (sig * tnMass mu sig low high)) (tnDensity x mu sig low high) p ∧ |p| ≤ 2 ^ 100 := by
  have hκ := C.pos
  have hk : 1000 * κ ≤ 1 := by have := C.small; norm_num at this ⊢; linarith
  have s0 : 0 < sig := lt_of_lt_of_le (by positivity) hs0
  have hP : 0 < gcdf mu sig high - gcdf mu sig low := sub_pos.2 (gcdf_strictMono s0 hlh)
  have hP1 : gcdf mu sig high - gcdf mu sig low ≤ 1 := by
    unfold gcdf
    have := erf_le_one ((high - mu) / (sig * Real.sqrt 2))
    have := neg_one_le_erf ((low - mu) / (sig * Real.sqrt 2))
    linarith
  unfold tnMass at hε ⊢
  have hη0 : 0 ≤ 2⁻¹ ^ 44 / (sig * (gcdf mu sig high - gcdf mu sig low)) := by positivity
  have hκP : 0 ≤ κ * (40 / (gcdf mu sig high - gcdf mu sig low)) := by positivity
  have hκP1 : κ * (40 / (gcdf mu sig high - gcdf mu sig low)) ≤ 1 := by linarith [mul_add κ 781 (40 / (gcdf mu sig high - gcdf mu sig low))]
  have h40 : 40 * κ ≤ gcdf mu sig high - gcdf mu sig low := by
    have := hκP1
    rw [← mul_div_assoc, div_le_one hP] at this; linarith
  have hPlo : 2⁻¹ ^ 45 ≤ gcdf mu sig high - gcdf mu sig low := by have := C.tiny; norm_num at this ⊢; linarith
  obtain ⟨n, en, wn, nb0, nb1⟩ := C.prefactor hs0 hs1
  have hn0 : 2⁻¹ ^ 27 ≤ 1 / (sig * Real.sqrt (2 * Real.pi)) / (gcdf mu sig high - gcdf mu sig low) := nb0.trans (le_div_self (le_trans (by positivity) nb0) hP hP1)
  have hn1 : 1 / (sig * Real.sqrt (2 * Real.pi)) / (gcdf mu sig high - gcdf mu sig low) ≤ 2 ^ 70 := by
    rw [div_le_iff₀ hP]
    exact nb1.trans (le_trans (by norm_num) (mul_le_mul_of_nonneg_left hPlo (by positivity)))
  by_cases h8 : |x - mu| ≤ 8 * sig
  · have hZ : ((x - mu) / sig) ^ 2 ≤ 64 := by
      rw [← sq_abs, abs_div, abs_of_pos s0]
      have : |x - mu| / sig ≤ 8 := by rw [div_le_iff₀ s0]; exact h8
      have h0 : 0 ≤ |x - mu| / sig := by positivity
      nlinarith
    have hle : κ * (13 + 12 * ((x - mu) / sig) ^ 2 + 40 / (gcdf mu sig high - gcdf mu sig low)) ≤ κ * (781 + 40 / (gcdf mu sig high - gcdf mu sig low)) :=
      mul_le_mul_of_nonneg_left (by linarith) hκ.le
    obtain ⟨p, ep, wp⟩ := C142_error C E hs0 hs1 hx hl hh hlh hlx hxh h8 (hle.trans hε)
    have hE0 : 0 ≤ tnDensity x mu sig low high := tnDensity_nonneg s0 hlh
    have hE1 : tnDensity x mu sig low high ≤ 2 ^ 70 := by
      unfold tnDensity
      have e1 : Real.exp (-((x - mu) * (x - mu)) / (2 * (sig * sig))) ≤ 1 :=
        Real.exp_le_one_iff.2 (div_nonpos_of_nonpos_of_nonneg (neg_nonpos.2 (mul_self_nonneg _)) (by positivity))
      exact (mul_le_of_le_one_left (le_trans (by positivity) hn0) e1).trans hn1
    have wp' : Within (κ * (781 + 40 / (gcdf mu sig high - gcdf mu sig low))) (tnDensity x mu sig low high) p := Within.mono hle hE0 wp
    refine ⟨p, ep, wp'.near hη0, ?_⟩
    have p3 := wp'.le_three hε hE0
    have p0 := wp'.third_le hε hE0
    rw [abs_of_nonneg (by linarith)]
    exact p3.trans (le_trans (mul_le_mul_of_nonneg_left hE1 (by norm_num)) (by norm_num))
  · have hZ : 64 < ((x - mu) / sig) ^ 2 := by
      rw [← sq_abs, abs_div, abs_of_pos s0]
      have : 8 < |x - mu| / sig := by rw [lt_div_iff₀ s0]; exact not_le.1 h8
      nlinarith
    obtain ⟨ch, ech, hch⟩ := C.cdf E hs0 hs1 hh
    obtain ⟨cl, ecl, hcl⟩ := C.cdf E hs0 hs1 hl
    obtain ⟨e, ee, we⟩ := C.exponent hs0 hs1 hx
    have hEx : -((x - mu) * (x - mu)) / (2 * (sig * sig)) = -(((x - mu) / sig) ^ 2 / 2) := by field_simp
    unfold tnDensity
    rw [hEx] at we ⊢
    have hn2 : 1 / (sig * Real.sqrt (2 * Real.pi)) / (gcdf mu sig high - gcdf mu sig low) ≤ 1 / 2 * (1 / (sig * (gcdf mu sig high - gcdf mu sig low))) := by
      rw [div_div, ← one_div_mul_one_div_rev, ← one_div_mul_one_div_rev, ← one_div_mul_one_div_rev]
      have h2 : 1 / Real.sqrt (2 * Real.pi) ≤ 1 / 2 := one_div_le_one_div_of_le (by norm_num) sqrt_two_pi_bounds.1
      have h3 : 0 ≤ 1 / sig := by positivity
      have h4 : 0 ≤ 1 / (gcdf mu sig high - gcdf mu sig low) := by positivity
      have := mul_le_mul_of_nonneg_left (mul_le_mul_of_nonneg_right h2 h3) h4
      linarith
    have hη : (2:ℝ)⁻¹ ^ 44 / (sig * (gcdf mu sig high - gcdf mu sig low)) = 2⁻¹ ^ 44 * (1 / (sig * (gcdf mu sig high - gcdf mu sig low))) := by rw [mul_one_div]
    rw [hη] at hη0 ⊢
    have hu0 : 0 ≤ 1 / (sig * (gcdf mu sig high - gcdf mu sig low)) := by positivity
    generalize hPdef : gcdf mu sig high - gcdf mu sig low = P at *
    generalize 1 / (sig * P) = U at *
    generalize 1 / (sig * Real.sqrt (2 * Real.pi)) = N0 at *
    generalize ((x - mu) / sig) ^ 2 = Z at *
    -- the denominator and the norm
    have hd : |ch - cl - P| ≤ κ * (20 / P) * |P| := by
      rw [abs_of_pos hP, mul_assoc, div_mul_cancel₀ _ hP.ne']
      rw [abs_le] at hch hcl ⊢
      constructor <;> linarith [hch.1, hch.2, hcl.1, hcl.2]
    have e20 : κ * (40 / P) = 2 * (κ * (20 / P)) := by ring
    have hε' : κ * 781 + κ * (40 / P) ≤ 1 := by linarith [mul_add κ 781 (40 / P)]
    have wd : Rel (κ * (40 / P)) P (ch - cl) := by
      rw [e20]; exact rel_of_abs (by positivity) (by linarith) hd
    obtain ⟨d, ed, wd'⟩ := C.rd_rel0 wd (by linarith) (.inr (normal3_pos hPlo hP1 (by norm_num) (by norm_num)))
    have hd0 : d ≠ 0 := by
      obtain ⟨θ, -, rfl⟩ := wd'
      exact mul_ne_zero hP.ne' (Real.exp_pos _).ne'
    obtain ⟨N, eN, wN⟩ := C.rd_rel0 (wn.div wd') (by linarith) (.inr (normal3_pos hn0 hn1 (by norm_num) (by norm_num)))
    have hNp : 0 < N0 / P := lt_of_lt_of_le (by positivity) hn0
    have hN0 := wN.pos hNp
    have hN3 := (wN.within hNp.le).le_three (by linarith) hNp.le
    -- the exponential
    have he : e ≤ -(63 / 2) - κ := by
      obtain ⟨θ, h1, rfl⟩ := we
      have := Real.add_one_le_exp θ
      rw [abs_le] at h1
      have h2 : 0.98 ≤ Real.exp θ - 0 := by linarith
      nlinarith
    obtain ⟨g, eg, g0, g1⟩ : ∃ g, f.exp (fin e) = fin g ∧ 0 ≤ g ∧ g ≤ 2⁻¹ ^ 45 := by
      by_cases h80 : e < -80
      · obtain ⟨g, eg, a, b⟩ := C.exp_small e h80
        exact ⟨g, eg, a, b.trans (by norm_num)⟩
      · obtain ⟨g, eg, a, b⟩ := C.exp_norm e (abs_le.2 ⟨by linarith, by linarith⟩)
        refine ⟨g, eg, le_trans (by positivity) a, b.trans ?_⟩
        rw [← Real.exp_add]
        exact (Real.exp_le_exp.2 (by linarith)).trans exp_tail
    have hy0 : 0 ≤ g * N := mul_nonneg g0 hN0.le
    have hy1 : g * N ≤ 2⁻¹ ^ 45 * (3 * (N0 / P)) := mul_le_mul g1 hN3 hN0.le (by positivity)
    have hyhi : |g * N| ≤ flHi := by
      rw [abs_of_nonneg hy0]
      refine hy1.trans (le_trans (mul_le_mul_of_nonneg_left (mul_le_mul_of_nonneg_left hn1 (by norm_num)) (by positivity)) (by unfold flHi; norm_num))
    obtain ⟨p, ep, np⟩ := C.rd_near (δ := 0) (η := 0) le_rfl le_rfl hy0 hyhi (Within.near le_rfl (Within.refl' le_rfl hy0))
    have hex0 : 0 ≤ Real.exp (-(Z / 2)) := (Real.exp_pos _).le
    have hex1 : Real.exp (-(Z / 2)) ≤ 2⁻¹ ^ 45 := (Real.exp_le_exp.2 (by linarith)).trans exp_tail
    have hEE : Real.exp (-(Z / 2)) * (N0 / P) ≤ 2⁻¹ ^ 45 * (N0 / P) := mul_le_mul_of_nonneg_right hex1 hNp.le
    have hEE0 : 0 ≤ Real.exp (-(Z / 2)) * (N0 / P) := mul_nonneg hex0 hNp.le
    have hlo : 100 * flLo ≤ 2⁻¹ ^ 45 * (N0 / P) := le_trans (by unfold flLo; norm_num) (mul_le_mul_of_nonneg_left hn0 (by positivity))
    have hlo0 := flLo_pos
    have hk2 : Real.exp (0 + 2 * κ) ≤ 1.01 := by
      have := Real.abs_exp_sub_one_le (x := 0 + 2 * κ) (by rw [abs_of_nonneg (by linarith)]; linarith)
      rw [abs_of_nonneg (show 0 ≤ 0 + 2 * κ by linarith)] at this
      linarith [(abs_le.1 this).2]
    have hpu : p ≤ 1.01 * (2⁻¹ ^ 45 * (3 * (N0 / P))) + flLo := by
      have := mul_le_mul hk2 hy1 hy0 (by norm_num)
      have h := np.2
      linarith
    have hpl : -flLo ≤ p := by
      have := np.1
      have : 0 ≤ Real.exp (-(0 + 2 * κ)) * (g * N) := mul_nonneg (Real.exp_pos _).le hy0
      linarith
    have h45 : (2:ℝ)⁻¹ ^ 45 * (N0 / P) ≤ 2⁻¹ ^ 45 * (1 / 2 * U) := mul_le_mul_of_nonneg_left hn2 (by positivity)
    have h4544 : (2:ℝ)⁻¹ ^ 45 * (1 / 2 * U) = 1 / 4 * (2⁻¹ ^ 44 * U) := by ring
    refine ⟨p, ?_, ⟨?_, ?_⟩, ?_⟩
    · unfold truncnorm_pdfR
      simp only [Bool.false_eq_true, if_false, lt_fin, gt_fin]
      rw [if_neg (by rintro (h | h) <;> linarith), ee, eg, ech, ecl, sub_fin, ed, en, div_fin hd0, eN, mul_fin]
      exact ep
    · have : Real.exp (-(κ * (781 + 40 / P))) * (Real.exp (-(Z / 2)) * (N0 / P)) ≤ 1 * (Real.exp (-(Z / 2)) * (N0 / P)) :=
        mul_le_mul_of_nonneg_right (Real.exp_le_one_iff.2 (by have : 0 ≤ κ * (781 + 40 / P) := by positivity
                                                              linarith)) hEE0
      linarith
    · have : 0 ≤ Real.exp (κ * (781 + 40 / P)) * (Real.exp (-(Z / 2)) * (N0 / P)) := mul_nonneg (Real.exp_pos _).le hEE0
      linarith
    · have hb : 2⁻¹ ^ 45 * (N0 / P) ≤ 2⁻¹ ^ 45 * 2 ^ 70 := mul_le_mul_of_nonneg_left hn1 (by positivity)
      have hb' : (2:ℝ)⁻¹ ^ 45 * 2 ^ 70 = 2 ^ 25 := by norm_num
      have hb'' : (2:ℝ) ^ 25 * 5 ≤ 2 ^ 100 := by norm_num
      rw [abs_le]
      constructor <;> linarith

/-! ### power law and peak -/

/-- the exact density of the power law with a peak -/
def peakDensity (x α l h mu sig lam : ℝ) : ℝ := (1 - lam) * plDensity x α l h + lam * tnDensity x mu sig l h

/-- What is asked of the mass model at one mass: slope and bounds in the range of the power law, the peak neither too narrow nor too far from the interval, the weight of the peak not too close to
one, the density of moderate size, and the tail of the peak negligible against it.  `K` bounds the errors of the two components. -/
structure PeakOK (κ K x α l h mu sig lam : ℝ) : Prop where
  pl : PLRange α l h
  low : l ≤ x
  high : x ≤ h
  sig0 : 2⁻¹ ^ 25 ≤ sig
  sig1 : sig ≤ 2 ^ 25
  mx : Moderate (x - mu)
  ml : Moderate (l - mu)
  mh : Moderate (h - mu)
  lam0 : 0 ≤ lam
  lam1 : lam ≤ 1 - 2⁻¹ ^ 20
  size0 : (2⁻¹:ℝ) ^ 60 ≤ peakDensity x α l h mu sig lam
  size1 : peakDensity x α l h mu sig lam ≤ 2 ^ 60
  tail : 12 * (2⁻¹ ^ 44 / (sig * tnMass mu sig l h)) ≤ κ * peakDensity x α l h mu sig lam
  errPl : plErr (1 + α) (Real.log (h / l)) + 4 ≤ K
  errTn : 781 + 40 / tnMass mu sig l h ≤ K

/-- **C147** (primary mass).  The computed density of power law and peak is the exact one up to `K + 6` rounding units. -/
theorem C147_primary (C : f.Contract κ) {pw : F → F → F} (P : PowContract pw κ) {erf' : F → F} (E : ErfContract erf' κ) {K x α l h mu sig lam : ℝ}
    (r : PeakOK κ K x α l h mu sig lam) (hK : κ * (K + 6) ≤ 1) :
    ∃ p, plpeak_primary_pdfR f pw erf' (fin x) (fin α) (fin l) (fin h) (fin mu) (fin sig) (fin lam) = fin p ∧ Within (κ * (K + 6)) (peakDensity x α l h mu sig lam) p := by
  have hκ := C.pos
  have l0 : 0 < l := lt_of_lt_of_le (by positivity) r.pl.low
  have h0 : 0 < h := l0.trans_le (r.low.trans r.high)
  have hlh := r.pl.lt h0
  have s0 : 0 < sig := lt_of_lt_of_le (by positivity) r.sig0
  have hP : 0 < tnMass mu sig l h := sub_pos.2 (gcdf_strictMono s0 hlh)
  have e1 : κ * (plErr (1 + α) (Real.log (h / l)) + 4) ≤ κ * K := mul_le_mul_of_nonneg_left r.errPl hκ.le
  have e2 : κ * (781 + 40 / tnMass mu sig l h) ≤ κ * K := mul_le_mul_of_nonneg_left r.errTn hκ.le
  rw [mul_add] at e1 hK
  have hK0 : 0 ≤ κ * K := le_trans (by positivity) e2
  obtain ⟨a, ea, wa⟩ := C.powerlaw P r.pl r.low r.high (by linarith)
  obtain ⟨b, eb, nb, bb⟩ := C147_truncnorm C E r.sig0 r.sig1 r.mx r.ml r.mh hlh r.low r.high (by linarith)
  obtain ⟨-, g0, g1⟩ := r.pl.density r.low r.high
  have gp : 0 < plDensity x α l h := lt_of_lt_of_le (by positivity) g0
  have hc0 : (2⁻¹:ℝ) ^ 20 ≤ 1 - lam := by linarith [r.lam1]
  have hc1 : 1 - lam ≤ 1 := by linarith [r.lam0]
  obtain ⟨u, eu, wu⟩ := C.rd_rel0 (Rel.refl (x := 1 - lam)) (by norm_num) (.inr (normal3_pos hc0 hc1 (by norm_num) (by norm_num)))
  have hA0 : (2⁻¹:ℝ) ^ 120 ≤ (1 - lam) * plDensity x α l h := le_trans (by norm_num) (mul_le_mul hc0 g0 (by positivity) (by linarith))
  have hA1 : (1 - lam) * plDensity x α l h ≤ 2 ^ 120 := (mul_le_of_le_one_left gp.le hc1).trans (g1.trans (by norm_num))
  have wd := wu.mul (Rel.of_within gp wa)
  obtain ⟨t1, et1, wt1⟩ := C.rd_rel0 wd (by linarith) (.inr (normal3_pos hA0 hA1 (by norm_num) (by norm_num)))
  obtain ⟨p, ep, wp⟩ := C.mix_terms (ε := κ * K) r.lam0 (by linarith) hK0 (by linarith) (le_trans (by positivity) hA0) et1 wt1 (tnDensity_nonneg s0 hlh)
    (by positivity) (nb.mono e2 le_rfl (tnDensity_nonneg s0 hlh)) (bb.trans (by unfold flHi; norm_num)) r.size0 (r.size1.trans (by norm_num)) r.tail (by linarith)
  refine ⟨p, ?_, wp.mono (by linarith) (le_trans (by positivity) r.size0)⟩
  unfold plpeak_primary_pdfR mixR
  have e11 : (1:F) - fin lam = fin (1 - lam) := sub_fin 1 lam
  rw [ea, eb, e11, eu, mul_fin]
  exact ep

/-! ### mass ratio -/

/-- error of the power law in mass ratio, whose lower bound is itself rounded -/
def ratioErr (s Λ : ℝ) : ℝ := plErr s (Λ / 2) + 8 * (|s| + 2 / Λ)

/-- numbers for which the power law in mass ratio is harmless -/
structure RatioRange (κ β l q : ℝ) : Prop where
  low : (2⁻¹:ℝ) ^ 6 ≤ l
  gap : (2⁻¹:ℝ) ^ 7 ≤ Real.log (1 / l)
  slope : |1 + β| ≤ 6
  slope0 : (2⁻¹:ℝ) ^ 8 ≤ |1 + β|
  inside : l * (1 + 4 * κ) ≤ q
  le_one : q ≤ 1

/-- rounding the lower bound changes the normalisation by a factor close to one -/
theorem low_sensitivity {l l' s ε : ℝ} (l0 : 0 < l) (l1 : l < 1) (hs : s ≠ 0) (hε0 : 0 ≤ ε) (h : Rel ε l l') (h1 : ε * |s| ≤ 1) (h2 : 2 * ε * (|s| + 2 / Real.log (1 / l)) ≤ 1 / 2) :
    Rel (4 * ε * (|s| + 2 / Real.log (1 / l))) (1 ^ s - l ^ s) (1 ^ s - l' ^ s) := by
  obtain ⟨θ, hθ, rfl⟩ := h
  have hΛ : 0 < Real.log (1 / l) := Real.log_pos ((one_lt_div l0).2 l1)
  have c := cancellation l0 l1 hs
  have hsp : 0 < |s| := abs_pos.2 hs
  have e1 : (l * Real.exp θ) ^ s = l ^ s * Real.exp (s * θ) := by
    rw [Real.mul_rpow l0.le (Real.exp_pos _).le, ← Real.exp_mul, mul_comm θ s]
  have hb : |s * θ| ≤ ε * |s| := by rw [abs_mul, mul_comm]; exact mul_le_mul_of_nonneg_right hθ hsp.le
  have e2 := Real.abs_exp_sub_one_le (hb.trans h1)
  have hl := Real.rpow_pos_of_pos l0 s
  have key : |1 ^ s - (l * Real.exp θ) ^ s - (1 ^ s - l ^ s)| ≤ 2 * ε * (|s| + 2 / Real.log (1 / l)) * |1 ^ s - l ^ s| := by
    rw [e1]
    have e3 : (1:ℝ) ^ s - l ^ s * Real.exp (s * θ) - (1 ^ s - l ^ s) = -(l ^ s * (Real.exp (s * θ) - 1)) := by ring
    rw [e3, abs_neg, abs_mul, abs_of_pos hl]
    have h3 : l ^ s ≤ (1 + 2 / (|s| * Real.log (1 / l))) * |1 ^ s - l ^ s| := by
      refine le_trans ?_ c
      rw [Real.one_rpow]; linarith
    calc l ^ s * |Real.exp (s * θ) - 1| ≤ ((1 + 2 / (|s| * Real.log (1 / l))) * |1 ^ s - l ^ s|) * (2 * (ε * |s|)) :=
          mul_le_mul h3 (e2.trans (by linarith)) (abs_nonneg _) (by positivity)
      _ = 2 * ε * (|s| + 2 / Real.log (1 / l)) * |1 ^ s - l ^ s| := by field_simp
  exact (rel_of_abs (by positivity) h2 key).mono (by linarith)

/-- **C147** (mass ratio).  The power law in mass ratio with the rounded lower bound `mmin / m1`. -/
theorem C147_ratio (C : f.Contract κ) {pw : F → F → F} (P : PowContract pw κ) {β mmin m1 q : ℝ} (hm : 0 < m1) (r : RatioRange κ β (mmin / m1) q)
    (hε : κ * ratioErr (1 + β) (Real.log (1 / (mmin / m1))) ≤ 1 / 2) :
    ∃ p, powerlaw_pdfR f pw (fin q) (fin β) (f.r (fin mmin / fin m1)) 1 = fin p ∧ Within (κ * ratioErr (1 + β) (Real.log (1 / (mmin / m1)))) (plDensity q β (mmin / m1) 1) p ∧
      0 < plDensity q β (mmin / m1) 1 := by
  have hκ := C.pos
  have hk : 1000 * κ ≤ 1 := by have := C.small; norm_num at this ⊢; linarith
  have hk12 : κ ≤ 2⁻¹ ^ 12 := C.small
  rw [div_fin hm.ne']
  generalize hl : mmin / m1 = l at *
  have l0 : 0 < l := lt_of_lt_of_le (by positivity) r.low
  have hΛ : 0 < Real.log (1 / l) := lt_of_lt_of_le (by positivity) r.gap
  have l1 : l < 1 := by
    by_contra hc
    have : Real.log (1 / l) ≤ 0 := Real.log_nonpos (by positivity) ((div_le_one l0).2 (not_lt.1 hc))
    linarith
  have hs : 1 + β ≠ 0 := by
    intro h; have := r.slope0; rw [h, abs_zero] at this
    have : (0:ℝ) < 2⁻¹ ^ 8 := by positivity
    linarith
  obtain ⟨l', el, wl⟩ := C.rd_rel0 (Rel.refl (x := l)) (by norm_num) (.inr (normal3_pos r.low l1.le (by norm_num) (by norm_num)))
  rw [el]
  have hl'0 := wl.pos l0
  obtain ⟨θ, hθ, e'⟩ := wl
  rw [zero_add] at hθ
  have hlog' : Real.log (1 / l') = Real.log (1 / l) - θ := by
    rw [e', one_div, one_div, Real.log_inv, Real.log_inv, Real.log_mul l0.ne' (Real.exp_pos _).ne', Real.log_exp]; ring
  rw [abs_le] at hθ
  have hgap := r.gap
  have hΛ' : Real.log (1 / l) / 2 ≤ Real.log (1 / l') := by
    rw [hlog']
    have : (2⁻¹:ℝ) ^ 7 / 2 ≥ 2 * 2⁻¹ ^ 12 := by norm_num
    linarith [hθ.2]
  have hlow' : (2⁻¹:ℝ) ^ 7 ≤ l' := by
    rw [e']
    have := Real.add_one_le_exp θ
    have h2 : 1 / 2 ≤ Real.exp θ := by linarith [hθ.1]
    calc (2⁻¹:ℝ) ^ 7 = 2⁻¹ ^ 6 * (1 / 2) := by norm_num
      _ ≤ _ := mul_le_mul r.low h2 (by norm_num) l0.le
  have hq : l' ≤ q := by
    rw [e']
    refine le_trans (mul_le_mul_of_nonneg_left ?_ l0.le) r.inside
    have := Real.abs_exp_sub_one_le (x := 2 * κ) (by rw [abs_of_nonneg (by linarith)]; linarith)
    rw [abs_of_nonneg (show 0 ≤ 2 * κ by linarith)] at this
    have h3 := Real.exp_le_exp.2 hθ.2
    linarith [(abs_le.1 this).2]
  have R' : PLRange β l' 1 := ⟨hlow', by norm_num, le_trans (by linarith [show (2⁻¹:ℝ) ^ 8 = 2⁻¹ ^ 7 / 2 by norm_num]) hΛ', r.slope, r.slope0⟩
  have hsp : 0 < |1 + β| := abs_pos.2 hs
  have hΛ'0 : 0 < Real.log (1 / l') := by linarith
  have herr : plErr (1 + β) (Real.log (1 / l')) ≤ plErr (1 + β) (Real.log (1 / l) / 2) := by
    unfold plErr
    have : 2 / (|1 + β| * Real.log (1 / l')) ≤ 2 / (|1 + β| * (Real.log (1 / l) / 2)) :=
      div_le_div_of_nonneg_left (by norm_num) (by positivity) (mul_le_mul_of_nonneg_left hΛ' hsp.le)
    have := mul_le_mul_of_nonneg_left (add_le_add_right this 1) (show 0 ≤ 4 * (1 + 5 * |1 + β|) by positivity)
    linarith
  have hκerr := mul_le_mul_of_nonneg_left herr hκ.le
  have hsum : κ * ratioErr (1 + β) (Real.log (1 / l)) = κ * plErr (1 + β) (Real.log (1 / l) / 2) + κ * (8 * (|1 + β| + 2 / Real.log (1 / l))) := by unfold ratioErr; ring
  have h8 : 0 ≤ κ * (8 * (|1 + β| + 2 / Real.log (1 / l))) := by positivity
  have hpl0 : 0 ≤ κ * plErr (1 + β) (Real.log (1 / l) / 2) := by unfold plErr; positivity
  obtain ⟨p, ep, wp⟩ := C.powerlaw P R' hq r.le_one (by linarith)
  have hsl := r.slope
  have hsens := low_sensitivity l0 l1 hs (show 0 ≤ 2 * κ by linarith) ⟨θ, abs_le.2 hθ, e'⟩ (by nlinarith)
    (by linarith [show 2 * (2 * κ) * (|1 + β| + 2 / Real.log (1 / l)) = κ * (8 * (|1 + β| + 2 / Real.log (1 / l))) / 2 by ring])
  have hrel : Rel (κ * (8 * (|1 + β| + 2 / Real.log (1 / l)))) (plDensity q β l 1) (plDensity q β l' 1) := by
    unfold plDensity
    exact ((Rel.refl (x := q ^ β)).mul ((Rel.refl (x := 1 + β)).div hsens)).mono (by linarith [show 4 * (2 * κ) * (|1 + β| + 2 / Real.log (1 / l)) = κ * (8 * (|1 + β| + 2 / Real.log (1 / l))) by ring])
  have hd' : 0 < plDensity q β l' 1 := lt_of_lt_of_le (by positivity) (R'.density hq r.le_one).2.1
  have hd : 0 < plDensity q β l 1 := by
    obtain ⟨φ, -, e⟩ := hrel
    rw [e] at hd'
    exact (mul_pos_iff_of_pos_right (Real.exp_pos _)).1 hd'
  refine ⟨p, ep, ?_, hd⟩
  exact ((hrel.within hd.le).trans wp).mono (by linarith) hd.le

/-- **C147** (both masses).  The joint density of primary mass and mass ratio. -/
theorem C147_masses (C : f.Contract κ) {pw : F → F → F} (P : PowContract pw κ) {erf' : F → F} (E : ErfContract erf' κ) {K m1 q α β mmin mmax mu sig lam : ℝ}
    (r : PeakOK κ K m1 α mmin mmax mu sig lam) (rq : RatioRange κ β (mmin / m1) q) (hq : ratioErr (1 + β) (Real.log (1 / (mmin / m1))) ≤ K) (hK : κ * (2 * K + 8) ≤ 1)
    (hsize : (2⁻¹:ℝ) ^ 122 ≤ plDensity q β (mmin / m1) 1 * peakDensity m1 α mmin mmax mu sig lam ∧ plDensity q β (mmin / m1) 1 * peakDensity m1 α mmin mmax mu sig lam ≤ 2 ^ 122) :
    ∃ p, plpeak_primary_ratio_pdfR f pw erf' (fin m1) (fin q) (fin α) (fin β) (fin mmin) (fin mmax) (fin mu) (fin sig) (fin lam) = fin p ∧
      Within (κ * (2 * K + 8)) (plDensity q β (mmin / m1) 1 * peakDensity m1 α mmin mmax mu sig lam) p := by
  have hκ := C.pos
  have hm : 0 < m1 := (lt_of_lt_of_le (by positivity) r.pl.low).trans_le r.low
  have hK' : κ * ratioErr (1 + β) (Real.log (1 / (mmin / m1))) ≤ κ * K := mul_le_mul_of_nonneg_left hq hκ.le
  have hKK : κ * (2 * K + 8) = 2 * (κ * K) + 8 * κ := by ring
  rw [hKK] at hK ⊢
  obtain ⟨a, ea, wa, pa⟩ := C147_ratio C P hm rq (by linarith)
  have hK6 : κ * (K + 6) = κ * K + 6 * κ := by ring
  have hK0 : 0 ≤ κ * K := le_trans (by have : 0 ≤ κ * (4 + plErr (1 + α) (Real.log (mmax / mmin)) - 4) := by
                                         have := r.pl.gap
                                         have h0 : 0 < Real.log (mmax / mmin) := lt_of_lt_of_le (by positivity) this
                                         unfold plErr; rw [add_sub_cancel_left]; positivity
                                       exact this) (mul_le_mul_of_nonneg_left (by linarith [r.errPl]) hκ.le)
  obtain ⟨b, eb, wb⟩ := C147_primary C P E r (by rw [hK6]; linarith)
  rw [hK6] at wb
  have pb : 0 < peakDensity m1 α mmin mmax mu sig lam := lt_of_lt_of_le (by positivity) r.size0
  have w := (Rel.of_within pa wa).mul (Rel.of_within pb wb)
  obtain ⟨p, ep, rp⟩ := C.rel_round w (by linarith) hsize.1 hsize.2
  refine ⟨p, ?_, (rp.within (mul_pos pa pb).le).mono (by linarith) (mul_pos pa pb).le⟩
  unfold plpeak_primary_ratio_pdfR
  rw [ea, eb, mul_fin]
  exact ep

end GW
end
