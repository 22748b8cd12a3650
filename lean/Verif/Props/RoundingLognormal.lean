import Verif.Props.RoundingTruncnorm

/-! # Property C159: the truncated log-normal density in rounded arithmetic -/

open Filter Topology
noncomputable section
open Classical
namespace GW
open F

variable {f : Arith} {κ : ℝ}

/-- the error function has slope at most `2/√π ≤ √2` -/
theorem erf_lipschitz (a b : ℝ) : |erf b - erf a| ≤ Real.sqrt 2 * |b - a| := by
  have hpi := Real.two_le_pi
  have hp : 0 < Real.sqrt Real.pi := Real.sqrt_pos.2 Real.pi_pos
  have h2 : 2 / Real.sqrt Real.pi ≤ Real.sqrt 2 := by
    rw [div_le_iff₀ hp, ← Real.sqrt_mul (by norm_num)]
    exact Real.le_sqrt_of_sq_le (by linarith)
  have := Convex.norm_image_sub_le_of_norm_hasDerivWithin_le (f := erf) (C := Real.sqrt 2) (s := Set.univ) (x := a) (y := b) (fun t _ => (erf_hasDerivAt t).hasDerivWithinAt)
    (fun t _ => by
      rw [Real.norm_eq_abs, abs_of_nonneg (by positivity)]
      exact (mul_le_of_le_one_right (by positivity) (Real.exp_le_one_iff.2 (by nlinarith [sq_nonneg t]))).trans h2) convex_univ (Set.mem_univ _) (Set.mem_univ _)
  simpa only [Real.norm_eq_abs] using this

theorem gcdf_lipschitz {mu sig : ℝ} (hs : 0 < sig) (a b : ℝ) : |gcdf mu sig b - gcdf mu sig a| ≤ |b - a| / sig := by
  have h := erf_lipschitz ((a - mu) / (sig * Real.sqrt 2)) ((b - mu) / (sig * Real.sqrt 2))
  have s2 : 0 < Real.sqrt 2 := Real.sqrt_pos.2 (by norm_num)
  have e : Real.sqrt 2 * |(b - mu) / (sig * Real.sqrt 2) - (a - mu) / (sig * Real.sqrt 2)| = |b - a| / sig := by
    rw [← sub_div, abs_div, abs_of_pos (mul_pos hs s2), show b - mu - (a - mu) = b - a by ring]
    field_simp
  rw [e] at h
  unfold gcdf
  rw [show 1 / 2 * (1 + erf ((b - mu) / (sig * Real.sqrt 2))) - 1 / 2 * (1 + erf ((a - mu) / (sig * Real.sqrt 2))) =
    1 / 2 * (erf ((b - mu) / (sig * Real.sqrt 2)) - erf ((a - mu) / (sig * Real.sqrt 2))) by ring, abs_mul, abs_of_pos (by norm_num : (0:ℝ) < 1 / 2)]
  linarith [abs_nonneg (erf ((b - mu) / (sig * Real.sqrt 2)) - erf ((a - mu) / (sig * Real.sqrt 2)))]

/-- the exact truncated log-normal density inside its limits -/
def lognormDensity (x mu sig low high : ℝ) : ℝ :=
  Real.exp (-((Real.log x - mu) / sig) ^ 2 / 2) * (1 / (x * sig * Real.sqrt (2 * Real.pi)) / (gcdf mu sig (Real.log high) - gcdf mu sig (Real.log low)))

/-- a number whose computed logarithm, minus the mean, is of ordinary size -/
structure LogOK (f : Arith) (M mu v : ℝ) : Prop where
  low : flLo ≤ v
  high : v ≤ flHi
  size : 1 + |Real.log v| ≤ M
  diff : ∃ y, f.log (fin v) = fin y ∧ Moderate (y - mu)

/-- the computed cumulative probability at a computed logarithm -/
theorem Arith.Contract.cdf_log (C : f.Contract κ) {erf' : F → F} (E : ErfContract erf' κ) {M v mu sig : ℝ} (hs0 : 2⁻¹ ^ 25 ≤ sig) (hs1 : sig ≤ 2 ^ 25) (hv : LogOK f M mu v) :
    ∃ c, f.r (fin (1 / 2) * f.r (1 + erf' (f.r (f.r (f.log (fin v) - fin mu) / f.r (fin sig * f.rd (Real.sqrt 2)))))) = fin c ∧ |c - gcdf mu sig (Real.log v)| ≤ 10 * κ + κ * (M / sig) := by
  have s0 : 0 < sig := lt_of_lt_of_le (by positivity) hs0
  obtain ⟨y, ey, my⟩ := hv.diff
  obtain ⟨y', ey', hy⟩ := C.log_norm v hv.low hv.high
  rw [ey] at ey'
  cases ey'
  obtain ⟨c, ec, hc⟩ := C.cdf E hs0 hs1 my
  refine ⟨c, by rw [ey]; exact ec, ?_⟩
  have h1 := gcdf_lipschitz (mu := mu) s0 (Real.log v) y
  have h2 : |y - Real.log v| / sig ≤ κ * (M / sig) := by
    rw [← mul_div_assoc]
    exact div_le_div_of_nonneg_right (hy.trans (mul_le_mul_of_nonneg_left hv.size C.pos.le)) s0.le
  have : c - gcdf mu sig (Real.log v) = (c - gcdf mu sig y) + (gcdf mu sig y - gcdf mu sig (Real.log v)) := by ring
  rw [this]
  exact (abs_add_le _ _).trans (by linarith)

/-- the prefactor `1 / (x σ √(2π))` -/
theorem Arith.Contract.prefactor_log (C : f.Contract κ) {x sig : ℝ} (h0 : 2⁻¹ ^ 24 ≤ x * sig) (h1 : x * sig ≤ 2 ^ 24) :
    ∃ n, f.r (1 / f.r (f.r (fin x * fin sig) * f.rd (Real.sqrt (2 * Real.pi)))) = fin n ∧ Rel (8 * κ) (1 / (x * sig * Real.sqrt (2 * Real.pi))) n ∧
      2⁻¹ ^ 28 ≤ 1 / (x * sig * Real.sqrt (2 * Real.pi)) ∧ 1 / (x * sig * Real.sqrt (2 * Real.pi)) ≤ 2 ^ 25 := by
  have hκ := C.pos
  have hk : 100 * κ ≤ 1 := by have := C.small; norm_num at this ⊢; linarith
  have p0 : 0 < x * sig := lt_of_lt_of_le (by positivity) h0
  obtain ⟨s, es, ws⟩ := C.rd_rel0 (Rel.refl (x := x * sig)) (by norm_num) (.inr (normal3_pos h0 h1 (by norm_num) (by norm_num)))
  have w := ws.within p0.le
  have ex1 : Real.exp (0 + 2 * κ) ≤ 2 := by
    have : Real.exp (0 + 2 * κ) ≤ Real.exp (1 / 2) := Real.exp_le_exp.2 (by linarith)
    have h2 : Real.exp (1 / 2) ^ 2 = Real.exp 1 := by rw [← Real.exp_nat_mul]; norm_num
    have h3 := Real.exp_pos (1 / 2)
    nlinarith [Real.exp_one_lt_d9]
  have ex0 : (1:ℝ) / 2 ≤ Real.exp (-(0 + 2 * κ)) := by
    rw [Real.exp_neg, one_div]; exact inv_anti₀ (Real.exp_pos _) ex1
  have s0 : 2⁻¹ ^ 25 ≤ s := le_trans (le_trans (by norm_num) (mul_le_mul ex0 h0 (by positivity) (Real.exp_pos _).le)) w.1
  have s1 : s ≤ 2 ^ 25 := w.2.trans ((mul_le_mul ex1 h1 p0.le (by norm_num)).trans (by norm_num))
  obtain ⟨n, en, wn, -, -⟩ := C.prefactor s0 s1
  obtain ⟨t0, t1⟩ := sqrt_two_pi_bounds
  have hp : 0 < x * sig * Real.sqrt (2 * Real.pi) := mul_pos p0 (by linarith)
  refine ⟨n, by rw [mul_fin, es, en], (((Rel.refl (x := 1)).div (ws.mul (Rel.refl (x := Real.sqrt (2 * Real.pi))))).trans wn).mono (by linarith), ?_, ?_⟩
  · rw [le_div_iff₀ hp]
    calc (2⁻¹:ℝ) ^ 28 * (x * sig * Real.sqrt (2 * Real.pi)) ≤ 2⁻¹ ^ 28 * (2 ^ 24 * 4) := mul_le_mul_of_nonneg_left (mul_le_mul h1 (t1.trans (by norm_num)) (by linarith) (by norm_num)) (by positivity)
      _ ≤ 1 := by norm_num
  · rw [div_le_iff₀ hp]
    calc (1:ℝ) ≤ 2 ^ 25 * (2⁻¹ ^ 24 * 1) := by norm_num
      _ ≤ _ := mul_le_mul_of_nonneg_left (mul_le_mul h0 (by linarith) (by norm_num) p0.le) (by positivity)

/-- the exponential at a computed logarithm: `z` bounds the distance from the mean in standard deviations -/
theorem Arith.Contract.gauss_log (C : f.Contract κ) {M x mu sig z : ℝ} (hs0 : 2⁻¹ ^ 25 ≤ sig) (hs1 : sig ≤ 2 ^ 25) (hx : LogOK f M mu x) (hz : |Real.log x - mu| ≤ z * sig) (z8 : z ≤ 8)
    (hτ : κ * (M / sig) ≤ 1) (hε : 12 * κ * (z + 1) ^ 2 ≤ 1) :
    ∃ g, f.exp (f.r (-(f.r (f.r (f.log (fin x) - fin mu) * f.r (f.log (fin x) - fin mu))) / f.r (2 * f.r (fin sig * fin sig)))) = fin g ∧
      Rel (12 * κ * (z + 1) ^ 2 + κ * (M / sig) * (z + 1) + κ) (Real.exp (-((Real.log x - mu) / sig) ^ 2 / 2)) g := by
  have hκ := C.pos
  have hk : 100 * κ ≤ 1 := by have := C.small; norm_num at this ⊢; linarith
  have s0 : 0 < sig := lt_of_lt_of_le (by positivity) hs0
  have z0 : 0 ≤ z := by
    by_contra h
    push Not at h
    have := mul_neg_of_neg_of_pos h s0
    linarith [abs_nonneg (Real.log x - mu)]
  have M0 : 0 ≤ M := le_trans (by positivity) hx.size
  obtain ⟨y, ey, my⟩ := hx.diff
  obtain ⟨y', ey', hy⟩ := C.log_norm x hx.low hx.high
  rw [ey] at ey'
  cases ey'
  obtain ⟨e, ee, we⟩ := C.exponent hs0 hs1 my
  rw [ey, ee]
  -- in standard deviations
  have hE : -((y - mu) * (y - mu)) / (2 * (sig * sig)) = -((y - mu) / sig) ^ 2 / 2 := by field_simp
  rw [hE] at we
  have hu : |(Real.log x - mu) / sig| ≤ z := by rw [abs_div, abs_of_pos s0, div_le_iff₀ s0]; exact hz
  have hd : |(y - mu) / sig - (Real.log x - mu) / sig| ≤ κ * (M / sig) := by
    rw [← sub_div, abs_div, abs_of_pos s0, show y - mu - (Real.log x - mu) = y - Real.log x by ring, ← mul_div_assoc]
    exact div_le_div_of_nonneg_right (hy.trans (mul_le_mul_of_nonneg_left hx.size hκ.le)) s0.le
  generalize (y - mu) / sig = w at *
  generalize (Real.log x - mu) / sig = u at *
  generalize κ * (M / sig) = τ at *
  have hτ0 : 0 ≤ τ := (abs_nonneg _).trans hd
  have hw : |w| ≤ z + 1 := by
    have : w = (w - u) + u := by ring
    rw [this]; exact (abs_add_le _ _).trans (by linarith)
  have hw2 : w ^ 2 ≤ (z + 1) ^ 2 := by rw [← sq_abs]; exact pow_le_pow_left₀ (abs_nonneg _) hw 2
  have hw81 : w ^ 2 ≤ 81 := hw2.trans (by nlinarith)
  have hdiff : |-w ^ 2 / 2 - -u ^ 2 / 2| ≤ τ * (z + 1) := by
    have e1 : -w ^ 2 / 2 - -u ^ 2 / 2 = -((w - u) * (w + u) / 2) := by ring
    rw [e1, abs_neg, abs_div, abs_mul, abs_of_pos (by norm_num : (0:ℝ) < 2)]
    have h1 : |w + u| ≤ 2 * (z + 1) := (abs_add_le _ _).trans (by linarith)
    have := mul_le_mul hd h1 (abs_nonneg _) hτ0
    linarith
  have herr := we.err (by linarith)
  have hab : |-w ^ 2 / 2| = w ^ 2 / 2 := by rw [neg_div, abs_neg, abs_of_nonneg (by positivity)]
  rw [hab] at herr
  have h12 : 12 * κ * w ^ 2 ≤ 12 * κ * (z + 1) ^ 2 := mul_le_mul_of_nonneg_left hw2 (by positivity)
  have herr' : |e - -u ^ 2 / 2| ≤ 12 * κ * (z + 1) ^ 2 + τ * (z + 1) := by
    have : e - -u ^ 2 / 2 = (e - -w ^ 2 / 2) + (-w ^ 2 / 2 - -u ^ 2 / 2) := by ring
    rw [this]; exact (abs_add_le _ _).trans (by linarith)
  have he80 : |e| ≤ 80 := by
    have : e = (e - -w ^ 2 / 2) + -w ^ 2 / 2 := by ring
    rw [this]
    refine (abs_add_le _ _).trans ?_
    rw [hab]; linarith
  obtain ⟨g, eg, wg⟩ := C.exp_norm e he80
  exact ⟨g, eg, Rel.of_within (Real.exp_pos _) ((Within.of_abs_log herr').trans wg)⟩

/-- the error in rounding units: `z` standard deviations from the mean, `τ = M/σ` the size of the logarithms over the width, `P` the probability of the interval -/
def lognormErr (z τ P : ℝ) : ℝ := 15 + 12 * (z + 1) ^ 2 + τ * (z + 1) + (40 + 4 * τ) / P

/-- **C159.** `truncnorm_pdf(..., log=True)` in rounded arithmetic.  Besides the terms of C142 the error has the rounding of the logarithms, divided by the width. -/
theorem C159_error (C : f.Contract κ) {erf' : F → F} (E : ErfContract erf' κ) {M x mu sig low high z : ℝ} (hs0 : 2⁻¹ ^ 25 ≤ sig) (hs1 : sig ≤ 2 ^ 25)
    (hx : LogOK f M mu x) (hl : LogOK f M mu low) (hh : LogOK f M mu high) (hlh : low < high) (hlx : low ≤ x) (hxh : x ≤ high) (hz : |Real.log x - mu| ≤ z * sig) (z8 : z ≤ 8)
    (p0 : 2⁻¹ ^ 24 ≤ x * sig) (p1 : x * sig ≤ 2 ^ 24) (hτ : κ * (M / sig) ≤ 1)
    (hε : κ * lognormErr z (M / sig) (gcdf mu sig (Real.log high) - gcdf mu sig (Real.log low)) ≤ 1) :
    ∃ p, truncnorm_pdfR f erf' (fin x) (fin mu) (fin sig) (fin low) (fin high) true = fin p ∧
      Within (κ * lognormErr z (M / sig) (gcdf mu sig (Real.log high) - gcdf mu sig (Real.log low))) (lognormDensity x mu sig low high) p := by
  have hκ := C.pos
  have hk : 100 * κ ≤ 1 := by have := C.small; norm_num at this ⊢; linarith
  have s0 : 0 < sig := lt_of_lt_of_le (by positivity) hs0
  have l0 : 0 < low := flLo_pos.trans_le hl.low
  have M0 : 0 ≤ M := le_trans (by positivity) hx.size
  have z0 : 0 ≤ z := by
    by_contra h
    push Not at h
    have := mul_neg_of_neg_of_pos h s0
    linarith [abs_nonneg (Real.log x - mu)]
  have hP : 0 < gcdf mu sig (Real.log high) - gcdf mu sig (Real.log low) := sub_pos.2 (gcdf_strictMono s0 (Real.log_lt_log l0 hlh))
  have hP1 : gcdf mu sig (Real.log high) - gcdf mu sig (Real.log low) ≤ 1 := by
    unfold gcdf
    have := erf_le_one ((Real.log high - mu) / (sig * Real.sqrt 2))
    have := neg_one_le_erf ((Real.log low - mu) / (sig * Real.sqrt 2))
    linarith
  obtain ⟨ch, ech, hch⟩ := C.cdf_log E hs0 hs1 hh
  obtain ⟨cl, ecl, hcl⟩ := C.cdf_log E hs0 hs1 hl
  have hu : |(Real.log x - mu) / sig| ≤ z := by rw [abs_div, abs_of_pos s0, div_le_iff₀ s0]; exact hz
  have hτ0 : 0 ≤ M / sig := by positivity
  unfold lognormDensity
  unfold lognormErr at hε ⊢
  generalize hPdef : gcdf mu sig (Real.log high) - gcdf mu sig (Real.log low) = P at *
  have hsum : κ * (15 + 12 * (z + 1) ^ 2 + M / sig * (z + 1) + (40 + 4 * (M / sig)) / P) =
      15 * κ + 12 * κ * (z + 1) ^ 2 + κ * (M / sig) * (z + 1) + 2 * (κ * (20 + 2 * (M / sig)) / P) := by ring
  rw [hsum] at hε ⊢
  have t1 : 0 ≤ 12 * κ * (z + 1) ^ 2 := by positivity
  have t2 : 0 ≤ κ * (M / sig) * (z + 1) := by positivity
  have t3 : 0 ≤ κ * (20 + 2 * (M / sig)) / P := by positivity
  -- the denominator
  have h40 : 40 * κ ≤ P := by
    have h : 2 * (κ * (20 + 2 * (M / sig)) / P) ≤ 1 := by linarith
    rw [← mul_div_assoc, div_le_one hP] at h
    have : 0 ≤ κ * (M / sig) := by positivity
    linarith
  have hPlo : 2⁻¹ ^ 45 ≤ P := by have := C.tiny; norm_num at this ⊢; linarith
  have hd : |ch - cl - P| ≤ κ * (20 + 2 * (M / sig)) / P * |P| := by
    rw [abs_of_pos hP, div_mul_cancel₀ _ hP.ne']
    rw [abs_le] at hch hcl ⊢
    constructor <;> linarith [hch.1, hch.2, hcl.1, hcl.2]
  have wd : Rel (2 * (κ * (20 + 2 * (M / sig)) / P)) P (ch - cl) := rel_of_abs t3 (by linarith) hd
  obtain ⟨d, ed, wd'⟩ := C.rd_rel0 wd (by linarith) (.inr (normal3_pos hPlo hP1 (by norm_num) (by norm_num)))
  have hd0 : d ≠ 0 := by
    obtain ⟨θ, -, rfl⟩ := wd'
    exact mul_ne_zero hP.ne' (Real.exp_pos _).ne'
  -- the norm
  obtain ⟨n, en, wn, nb0, nb1⟩ := C.prefactor_log p0 p1
  have hn0 : 2⁻¹ ^ 28 ≤ 1 / (x * sig * Real.sqrt (2 * Real.pi)) / P := nb0.trans (le_div_self (le_trans (by positivity) nb0) hP hP1)
  have hn1 : 1 / (x * sig * Real.sqrt (2 * Real.pi)) / P ≤ 2 ^ 70 := by
    rw [div_le_iff₀ hP]
    exact nb1.trans (le_trans (by norm_num) (mul_le_mul_of_nonneg_left hPlo (by positivity)))
  obtain ⟨N, eN, wN⟩ := C.rd_rel0 (wn.div wd') (by linarith) (.inr (normal3_pos hn0 hn1 (by norm_num) (by norm_num)))
  -- the exponential
  obtain ⟨g, eg, wg⟩ := C.gauss_log hs0 hs1 hx hz z8 hτ (by linarith)
  have hU : ((Real.log x - mu) / sig) ^ 2 ≤ 64 := by
    rw [← sq_abs]
    exact (pow_le_pow_left₀ (abs_nonneg _) (hu.trans z8) 2).trans (by norm_num)
  have hexp0 : 2⁻¹ ^ 50 ≤ Real.exp (-((Real.log x - mu) / sig) ^ 2 / 2) := by
    have h1 : Real.exp (-32) ≤ Real.exp (-((Real.log x - mu) / sig) ^ 2 / 2) := Real.exp_le_exp.2 (by linarith)
    refine le_trans ?_ h1
    rw [Real.exp_neg]
    have h2 : Real.exp 32 = Real.exp 1 ^ 32 := by rw [← Real.exp_nat_mul]; norm_num
    have h3 : Real.exp 1 ^ 32 ≤ 2 ^ 50 := (pow_le_pow_left₀ (Real.exp_pos _).le Real.exp_one_lt_d9.le 32).trans (by norm_num)
    rw [h2, inv_pow]
    exact inv_anti₀ (pow_pos (Real.exp_pos _) _) h3
  have hexp1 : Real.exp (-((Real.log x - mu) / sig) ^ 2 / 2) ≤ 1 := Real.exp_le_one_iff.2 (by have := sq_nonneg ((Real.log x - mu) / sig); linarith)
  -- the product
  have hb0 : 2⁻¹ ^ 78 ≤ Real.exp (-((Real.log x - mu) / sig) ^ 2 / 2) * (1 / (x * sig * Real.sqrt (2 * Real.pi)) / P) :=
    le_trans (by norm_num) (mul_le_mul hexp0 hn0 (by positivity) (Real.exp_pos _).le)
  have hb1 : Real.exp (-((Real.log x - mu) / sig) ^ 2 / 2) * (1 / (x * sig * Real.sqrt (2 * Real.pi)) / P) ≤ 2 ^ 70 :=
    le_trans (mul_le_mul hexp1 hn1 (le_trans (by positivity) hn0) (by norm_num)) (by norm_num)
  obtain ⟨p, ep, wp⟩ := C.rd_rel0 (wg.mul wN) (by linarith) (.inr (normal3_pos hb0 hb1 (by norm_num) (by norm_num)))
  refine ⟨p, ?_, Rel.within (le_trans (by positivity) hb0) (wp.mono (by linarith))⟩
  unfold truncnorm_pdfR
  simp only [if_true, lt_fin, gt_fin]
  rw [if_neg (by rintro (h | h) <;> linarith), eg, ech, ecl, sub_fin, ed, en, div_fin hd0, eN, mul_fin, ep]

/-- **C159**, outside the limits the density is zero. -/
theorem C159_outside (f : Arith) (erf' : F → F) {x low high : ℝ} (mu sig : F) (h : x < low ∨ high < x) : truncnorm_pdfR f erf' (fin x) mu sig (fin low) (fin high) true = 0 := by
  unfold truncnorm_pdfR
  simp only [if_true, lt_fin, gt_fin]
  rw [if_pos (h.symm.imp id id)]

/-- `LogOK` from the exact logarithm: it is enough that it is not within rounding of the mean -/
theorem Arith.Contract.logOK (C : f.Contract κ) {M mu v : ℝ} (h0 : flLo ≤ v) (h1 : v ≤ flHi) (hM : 1 + |Real.log v| ≤ M) (hd0 : 2⁻¹ ^ 25 + κ * M ≤ |Real.log v - mu|) (hd1 : |Real.log v - mu| + κ * M ≤ 2 ^ 25) :
    LogOK f M mu v := by
  obtain ⟨y, ey, hy⟩ := C.log_norm v h0 h1
  have hy' : |y - Real.log v| ≤ κ * M := hy.trans (mul_le_mul_of_nonneg_left hM C.pos.le)
  refine ⟨h0, h1, hM, y, ey, .inr ⟨?_, ?_⟩⟩
  · have := abs_sub_abs_le_abs_sub (Real.log v - mu) (y - mu)
    rw [show Real.log v - mu - (y - mu) = -(y - Real.log v) by ring, abs_neg] at this
    linarith
  · have := abs_sub_abs_le_abs_sub (y - mu) (Real.log v - mu)
    rw [show y - mu - (Real.log v - mu) = y - Real.log v by ring] at this
    linarith

/-- single precision, the unit log-normal on `[1/4, 4]` at `2`: relative error at most `2⁻¹⁴` -/
example : ∃ p, truncnorm_pdfR binary32 erf32 (fin 2) (fin 0) (fin 1) (fin (1 / 4)) (fin 4) true = fin p ∧ Within (2⁻¹ ^ 14) (lognormDensity 2 0 1 (1 / 4) 4) p := by
  have l2a := Real.log_two_gt_d9
  have l2b := Real.log_two_lt_d9
  have l4 : Real.log 4 = 2 * Real.log 2 := by rw [show (4:ℝ) = 2 ^ 2 by norm_num, Real.log_pow]; norm_num
  have l4' : Real.log (1 / 4) = -(2 * Real.log 2) := by rw [one_div, Real.log_inv, l4]
  have lo : flLo ≤ 1 / 4 := by unfold flLo; norm_num
  have hi : 4 ≤ flHi := by unfold flHi; norm_num
  have hmass : 1 / 4 ≤ gcdf 0 1 1 - gcdf 0 1 (-1) := by
    have h := Convex.mul_sub_le_image_sub_of_le_deriv (f := gcdf 0 1) (D := Set.Icc (-1) 1) (C := 1 / 8) (convex_Icc _ _)
      (fun y _ => (gcdf_hasDerivAt one_pos y).continuousAt.continuousWithinAt) (fun y _ => (gcdf_hasDerivAt one_pos y).differentiableAt.differentiableWithinAt)
      (fun y hy => by
        rw [interior_Icc] at hy
        rw [(gcdf_hasDerivAt one_pos y).deriv]
        have h1 : 1 / 2 ≤ Real.exp (-((y - 0) * (y - 0)) / (2 * (1 * 1))) := by
          have := Real.add_one_le_exp (-((y - 0) * (y - 0)) / (2 * (1 * 1)))
          have hyy : y * y ≤ 1 := by nlinarith [hy.1, hy.2]
          have e : -((y - 0) * (y - 0)) / (2 * (1 * 1)) = -(y * y / 2) := by ring
          rw [e] at this ⊢; linarith
        have h2 : 1 / 3 ≤ 1 / (1 * Real.sqrt (2 * Real.pi)) := by
          rw [one_mul]; exact one_div_le_one_div_of_le (by linarith [sqrt_two_pi_bounds.1]) sqrt_two_pi_bounds.2
        exact le_trans (by norm_num) (mul_le_mul h1 h2 (by norm_num) (Real.exp_pos _).le))
      (-1) (by norm_num) 1 (by norm_num) (by norm_num)
    linarith
  have hP : 1 / 4 ≤ gcdf 0 1 (Real.log 4) - gcdf 0 1 (Real.log (1 / 4)) := by
    have h1 := (gcdf_strictMono (mu := 0) one_pos).monotone (show 1 ≤ Real.log 4 by rw [l4]; linarith)
    have h2 := (gcdf_strictMono (mu := 0) one_pos).monotone (show Real.log (1 / 4) ≤ -1 by rw [l4']; linarith)
    linarith
  have a2 : |Real.log 2| = Real.log 2 := abs_of_pos (by linarith)
  have a4 : |2 * Real.log 2| = 2 * Real.log 2 := abs_of_pos (by linarith)
  have ok2 : LogOK binary32 3 0 2 := binary32_contract.logOK (by linarith) (by linarith) (by rw [a2]; linarith) (by rw [sub_zero, a2]; norm_num; linarith) (by rw [sub_zero, a2]; norm_num; linarith)
  have ok4 : LogOK binary32 3 0 4 := binary32_contract.logOK (by linarith) hi (by rw [l4, a4]; linarith) (by rw [sub_zero, l4, a4]; norm_num; linarith) (by rw [sub_zero, l4, a4]; norm_num; linarith)
  have ok1 : LogOK binary32 3 0 (1 / 4) := binary32_contract.logOK lo (by linarith) (by rw [l4', abs_neg, a4]; linarith) (by rw [sub_zero, l4', abs_neg, a4]; norm_num; linarith)
    (by rw [sub_zero, l4', abs_neg, a4]; norm_num; linarith)
  have hb : (2⁻¹ : ℝ) ^ 23 * lognormErr 1 (3 / 1) (gcdf 0 1 (Real.log 4) - gcdf 0 1 (Real.log (1 / 4))) ≤ 2⁻¹ ^ 14 := by
    unfold lognormErr
    have h3 : (40 + 4 * (3 / 1)) / (gcdf 0 1 (Real.log 4) - gcdf 0 1 (Real.log (1 / 4))) ≤ 208 := by
      rw [div_le_iff₀ (by linarith)]; linarith
    calc (2⁻¹ : ℝ) ^ 23 * (15 + 12 * (1 + 1) ^ 2 + 3 / 1 * (1 + 1) + (40 + 4 * (3 / 1)) / (gcdf 0 1 (Real.log 4) - gcdf 0 1 (Real.log (1 / 4)))) ≤ 2⁻¹ ^ 23 * 277 :=
          mul_le_mul_of_nonneg_left (by linarith) (by positivity)
      _ ≤ 2⁻¹ ^ 14 := by norm_num
  obtain ⟨p, h1, hw⟩ := C159_error (z := 1) binary32_contract erf32_contract (by norm_num) (by norm_num) ok2 ok1 ok4 (by norm_num) (by norm_num) (by norm_num)
    (by rw [sub_zero, a2]; linarith) (by norm_num) (by norm_num) (by norm_num) (by norm_num) (hb.trans (by norm_num))
  refine ⟨p, h1, hw.mono hb ?_⟩
  have : 0 < gcdf 0 1 (Real.log 4) - gcdf 0 1 (Real.log (1 / 4)) := by linarith
  unfold lognormDensity
  positivity

/-- outside the limits -/
example : truncnorm_pdfR binary32 erf32 (fin 5) (fin 0) (fin 1) (fin (1 / 4)) (fin 4) true = 0 := C159_outside _ _ _ _ (.inr (by norm_num))

end GW
end
