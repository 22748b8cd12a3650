import Verif.Model.RoundingTruncnorm
import Verif.Props.RoundingPowerlaw
import Verif.Props.Distributions

/-! # C142: the truncated normal density in rounded arithmetic -/

noncomputable section
open Classical Filter Topology
namespace GW
open F

/-- What is used of the library's error function: absolute error `κ`, and exactly ±1 beyond ±5. -/
structure ErfContract (erf' : F → F) (κ : ℝ) : Prop where
  err : ∀ x : ℝ, ∃ y, erf' (fin x) = fin y ∧ |y - erf x| ≤ κ
  sat : ∀ x : ℝ, 5 ≤ x → erf' (fin x) = fin 1
  sat_neg : ∀ x : ℝ, x ≤ -5 → erf' (fin x) = fin (-1)

/-- zero, or of moderate size -/
def Moderate (y : ℝ) : Prop := y = 0 ∨ (2⁻¹ ^ 25 ≤ |y| ∧ |y| ≤ 2 ^ 25)

variable {f : Arith} {κ : ℝ}

theorem Arith.Contract.rd_rel0 (C : f.Contract κ) {ε x y : ℝ} (h : Rel ε x y) (hε : ε ≤ 1) (hx : x = 0 ∨ Normal3 x) : ∃ z, f.r (fin y) = fin z ∧ Rel (ε + 2 * κ) x z := by
  have hκ := C.pos
  rcases hx with rfl | hx
  · obtain ⟨θ, h1, h2⟩ := h
    rw [zero_mul] at h2
    refine ⟨0, by rw [h2]; exact C.rd_zero, 0, ?_, by simp⟩
    rw [abs_zero]; linarith [abs_nonneg θ]
  · obtain ⟨z, e, w⟩ := C.rd_rel (h.normal hε hx)
    exact ⟨z, e, h.trans w⟩

theorem normal3_of {y : ℝ} (h0 : 2⁻¹ ^ 120 ≤ |y|) (h1 : |y| ≤ 2 ^ 120) : Normal3 y :=
  ⟨le_trans (by unfold flLo; norm_num) h0, le_trans (mul_le_mul_of_nonneg_left h1 (by norm_num)) (by unfold flHi; norm_num)⟩

theorem normal3_pos {y a b : ℝ} (ha : a ≤ y) (hb : y ≤ b) (h0 : 2⁻¹ ^ 120 ≤ a) (h1 : b ≤ 2 ^ 120) : Normal3 y := by
  have hy : 0 < y := lt_of_lt_of_le (by positivity) (h0.trans ha)
  exact normal3_of (by rw [abs_of_pos hy]; linarith) (by rw [abs_of_pos hy]; linarith)

theorem sqrt_two_bounds : 1 ≤ Real.sqrt 2 ∧ Real.sqrt 2 ≤ 1.4143 :=
  ⟨Real.one_le_sqrt.2 (by norm_num), (Real.sqrt_le_left (by norm_num)).2 (by norm_num)⟩

theorem sqrt_two_pi_bounds : 2 ≤ Real.sqrt (2 * Real.pi) ∧ Real.sqrt (2 * Real.pi) ≤ 3 := by
  have h := Real.two_le_pi
  have h' := Real.pi_le_four
  exact ⟨Real.le_sqrt_of_sq_le (by linarith), (Real.sqrt_le_left (by norm_num)).2 (by linarith)⟩

/-- a relative change of the argument by a factor `exp θ` changes `erf` by at most `|θ|` -/
theorem erf_rel {ε q q' : ℝ} (h : Rel ε q q') : |erf q' - erf q| ≤ ε := by
  obtain ⟨θ, h1, rfl⟩ := h
  have hd : ∀ t : ℝ, HasDerivAt (fun t => erf (q * Real.exp t)) (2 / Real.sqrt Real.pi * Real.exp (-(q * Real.exp t) ^ 2) * (q * Real.exp t)) t := fun t =>
    HasDerivAt.comp (h₂ := erf) (h := fun t => q * Real.exp t) t (erf_hasDerivAt (q * Real.exp t)) ((Real.hasDerivAt_exp t).const_mul q)
  have hb : ∀ y : ℝ, |2 / Real.sqrt Real.pi * Real.exp (-y ^ 2) * y| ≤ 1 := by
    intro y
    have hp : 1 ≤ Real.sqrt Real.pi := Real.one_le_sqrt.2 (by have := Real.two_le_pi; linarith)
    have hp0 : 0 < Real.sqrt Real.pi := by linarith
    have e1 : y ^ 2 + 1 ≤ Real.exp (y ^ 2) := Real.add_one_le_exp _
    have e2 : 2 * |y| ≤ y ^ 2 + 1 := by nlinarith [sq_nonneg (|y| - 1), sq_abs y]
    rw [abs_mul, abs_mul, abs_of_pos (div_pos two_pos hp0), abs_of_pos (Real.exp_pos _), Real.exp_neg]
    have hE := Real.exp_pos (y ^ 2)
    rw [← div_eq_mul_inv, div_div, div_mul_eq_mul_div, div_le_one (mul_pos hp0 hE)]
    nlinarith
  have := Convex.norm_image_sub_le_of_norm_hasDerivWithin_le (f := fun t => erf (q * Real.exp t)) (C := 1) (s := Set.univ) (x := 0) (y := θ)
    (fun t _ => (hd t).hasDerivWithinAt) (fun t _ => by rw [Real.norm_eq_abs]; exact hb _) convex_univ (Set.mem_univ _) (Set.mem_univ _)
  simp only [Real.exp_zero, mul_one, Real.norm_eq_abs, sub_zero, one_mul] at this
  exact this.trans h1

theorem erf_tendsto : Tendsto erf atTop (𝓝 1) := by
  have h1 : MeasureTheory.IntegrableOn (fun t : ℝ => Real.exp (-t ^ 2)) (Set.Ioi 0) := by
    have := (integrable_exp_neg_mul_sq (b := 1) one_pos).integrableOn (s := Set.Ioi 0)
    simpa using this
  have h2 := MeasureTheory.intervalIntegral_tendsto_integral_Ioi 0 h1 tendsto_id
  have h3 : ∫ t in Set.Ioi (0:ℝ), Real.exp (-t ^ 2) = Real.sqrt Real.pi / 2 := by
    have := integral_gaussian_Ioi 1
    simpa using this
  rw [h3] at h2
  have h4 := h2.const_mul (2 / Real.sqrt Real.pi)
  have h5 : 2 / Real.sqrt Real.pi * (Real.sqrt Real.pi / 2) = 1 := by
    have := (Real.sqrt_pos.2 Real.pi_pos).ne'
    field_simp
  rw [h5] at h4
  exact h4

theorem erf_le_one (x : ℝ) : erf x ≤ 1 :=
  erf_strictMono.monotone.ge_of_tendsto erf_tendsto x

theorem neg_one_le_erf (x : ℝ) : -1 ≤ erf x := by
  have := erf_le_one (-x); rw [erf_neg] at this; linarith

theorem abs_erf_le_one (x : ℝ) : |erf x| ≤ 1 := abs_le.2 ⟨neg_one_le_erf x, erf_le_one x⟩

/-- the tail of the error function -/
theorem one_sub_erf_le {x : ℝ} (hx : 1 ≤ x) : 1 - erf x ≤ Real.exp (-x ^ 2) := by
  have hd : ∀ y : ℝ, HasDerivAt (fun y => erf y + Real.exp (-y ^ 2)) (2 / Real.sqrt Real.pi * Real.exp (-y ^ 2) + Real.exp (-y ^ 2) * -(2 * y)) y := fun y => by
    have h1 : HasDerivAt (fun y : ℝ => -y ^ 2) (-(2 * y)) y := by simpa using (hasDerivAt_pow 2 y).fun_neg
    exact (erf_hasDerivAt y).fun_add h1.exp
  have hp : 1 ≤ Real.sqrt Real.pi := Real.one_le_sqrt.2 (by have := Real.two_le_pi; linarith)
  have hanti : AntitoneOn (fun y => erf y + Real.exp (-y ^ 2)) (Set.Ici 1) := by
    refine antitoneOn_of_deriv_nonpos (convex_Ici 1) (fun y _ => (hd y).continuousAt.continuousWithinAt) (fun y _ => (hd y).differentiableAt.differentiableWithinAt) ?_
    intro y hy
    rw [interior_Ici] at hy
    have hy1 : (1:ℝ) < y := hy
    rw [(hd y).deriv]
    have e : 2 / Real.sqrt Real.pi ≤ 2 := div_le_self (by norm_num) hp
    have := Real.exp_pos (-y ^ 2)
    nlinarith
  have ht : Tendsto (fun y => erf y + Real.exp (-y ^ 2)) atTop (𝓝 (1 + 0)) := by
    refine erf_tendsto.add ?_
    refine Real.tendsto_exp_atBot.comp ?_
    exact tendsto_neg_atTop_atBot.comp (tendsto_pow_atTop (by norm_num))
  rw [add_zero] at ht
  have := le_of_tendsto ht (Filter.eventually_atTop.2 ⟨x, fun y hy => hanti (Set.mem_Ici.2 hx) (Set.mem_Ici.2 (hx.trans hy)) hy⟩)
  simp only at this
  linarith

/-- the steps shared by the theorems: the number handed to the error function -/
theorem Arith.Contract.standardise (C : f.Contract κ) {v mu sig : ℝ} (hs0 : 2⁻¹ ^ 25 ≤ sig) (hs1 : sig ≤ 2 ^ 25) (hv : Moderate (v - mu)) :
    ∃ q, f.r (f.r (fin v - fin mu) / f.r (fin sig * f.rd (Real.sqrt 2))) = fin q ∧ Rel (8 * κ) ((v - mu) / (sig * Real.sqrt 2)) q := by
  have hκ := C.pos
  have hk : 100 * κ ≤ 1 := by have := C.small; norm_num at this ⊢; linarith
  have s0 : 0 < sig := lt_of_lt_of_le (by positivity) hs0
  obtain ⟨t0, t1⟩ := sqrt_two_bounds
  have hv' : v - mu = 0 ∨ Normal3 (v - mu) := hv.imp id fun h => normal3_of (le_trans (by norm_num) h.1) (h.2.trans (by norm_num))
  obtain ⟨d, ed, wd⟩ := C.rd_rel0 (Rel.refl (x := v - mu)) (by norm_num) hv'
  obtain ⟨c, ec, wc⟩ := C.rd_rel0 (Rel.refl (x := Real.sqrt 2)) (by norm_num) (.inr (normal3_pos t0 t1 (by norm_num) (by norm_num)))
  have ws := (Rel.refl (x := sig)).mul wc
  have hss0 : 2⁻¹ ^ 25 ≤ sig * Real.sqrt 2 := by nlinarith
  have hss1 : sig * Real.sqrt 2 ≤ 2 ^ 26 := by
    have := mul_le_mul hs1 t1 (by linarith) (by norm_num); exact this.trans (by norm_num)
  obtain ⟨s, es, ws'⟩ := C.rd_rel0 ws (by linarith) (.inr (normal3_pos hss0 hss1 (by norm_num) (by norm_num)))
  have hs' : s ≠ 0 := by
    obtain ⟨θ, -, rfl⟩ := ws'
    have : 0 < sig * Real.sqrt 2 := mul_pos s0 (by linarith)
    exact mul_ne_zero this.ne' (Real.exp_pos _).ne'
  have hq : (v - mu) / (sig * Real.sqrt 2) = 0 ∨ Normal3 ((v - mu) / (sig * Real.sqrt 2)) := by
    rcases hv with h | h
    · left; rw [h, zero_div]
    · right
      have hp : 0 < sig * Real.sqrt 2 := mul_pos s0 (by linarith)
      refine normal3_of ?_ ?_
      · rw [abs_div, abs_of_pos hp, le_div_iff₀ hp]
        refine le_trans (mul_le_mul_of_nonneg_left hss1 (by positivity)) (le_trans (by norm_num) h.1)
      · rw [abs_div, abs_of_pos hp, div_le_iff₀ hp]
        refine h.2.trans (le_trans (by norm_num) (mul_le_mul_of_nonneg_left hss0 (by positivity)))
  obtain ⟨q, eq, wq⟩ := C.rd_rel0 (wd.div ws') (by linarith) hq
  refine ⟨q, ?_, wq.mono (by linarith)⟩
  have ec' : f.rd (Real.sqrt 2) = fin c := ec
  rw [sub_fin, ed, ec', mul_fin, es, div_fin hs', eq]

/-- the exponent -/
theorem Arith.Contract.exponent (C : f.Contract κ) {x mu sig : ℝ} (hs0 : 2⁻¹ ^ 25 ≤ sig) (hs1 : sig ≤ 2 ^ 25) (hx : Moderate (x - mu)) :
    ∃ e, f.r (-(f.r (f.r (fin x - fin mu) * f.r (fin x - fin mu))) / f.r (2 * f.r (fin sig * fin sig))) = fin e ∧
      Rel (12 * κ) (-((x - mu) * (x - mu)) / (2 * (sig * sig))) e := by
  have hκ := C.pos
  have hk : 100 * κ ≤ 1 := by have := C.small; norm_num at this ⊢; linarith
  have s0 : 0 < sig := lt_of_lt_of_le (by positivity) hs0
  have hv' : x - mu = 0 ∨ Normal3 (x - mu) := hx.imp id fun h => normal3_of (le_trans (by norm_num) h.1) (h.2.trans (by norm_num))
  obtain ⟨d, ed, wd⟩ := C.rd_rel0 (Rel.refl (x := x - mu)) (by norm_num) hv'
  have hdd : (x - mu) * (x - mu) = 0 ∨ (2⁻¹ ^ 50 ≤ (x - mu) * (x - mu) ∧ (x - mu) * (x - mu) ≤ 2 ^ 50) := by
    rcases hx with h | h
    · left; rw [h, zero_mul]
    · right
      rw [← abs_mul_abs_self (x - mu)]
      exact ⟨le_trans (by norm_num) (mul_le_mul h.1 h.1 (by positivity) (abs_nonneg _)), le_trans (mul_le_mul h.2 h.2 (abs_nonneg _) (by positivity)) (by norm_num)⟩
  have hdd' : (x - mu) * (x - mu) = 0 ∨ Normal3 ((x - mu) * (x - mu)) := hdd.imp id fun h => normal3_pos h.1 h.2 (by norm_num) (by norm_num)
  obtain ⟨e, ee, we⟩ := C.rd_rel0 (wd.mul wd) (by linarith) hdd'
  have hss0 : 2⁻¹ ^ 50 ≤ sig * sig := le_trans (by norm_num) (mul_le_mul hs0 hs0 (by positivity) s0.le)
  have hss1 : sig * sig ≤ 2 ^ 50 := le_trans (mul_le_mul hs1 hs1 s0.le (by positivity)) (by norm_num)
  obtain ⟨s, es, ws⟩ := C.rd_rel0 (Rel.refl (x := sig * sig)) (by norm_num) (.inr (normal3_pos hss0 hss1 (by norm_num) (by norm_num)))
  have w2 := (Rel.refl (x := 2)).mul ws
  obtain ⟨t, et, wt⟩ := C.rd_rel0 w2 (by linarith) (.inr (normal3_pos (a := 2⁻¹ ^ 50) (b := 2 ^ 51) (by linarith) (by linarith) (by norm_num) (by norm_num)))
  have h2s : 0 < 2 * (sig * sig) := by positivity
  have ht : t ≠ 0 := by
    obtain ⟨θ, -, rfl⟩ := wt
    exact mul_ne_zero h2s.ne' (Real.exp_pos _).ne'
  have wn : Rel (6 * κ) (-((x - mu) * (x - mu))) (-e) := by
    obtain ⟨θ, h1, h2⟩ := we
    exact ⟨θ, by linarith, by rw [h2]; ring⟩
  have hq : -((x - mu) * (x - mu)) / (2 * (sig * sig)) = 0 ∨ Normal3 (-((x - mu) * (x - mu)) / (2 * (sig * sig))) := by
    rcases hdd with h | h
    · left; rw [h]; simp
    · right
      have hp : 0 < (x - mu) * (x - mu) := lt_of_lt_of_le (by positivity) h.1
      refine normal3_of ?_ ?_
      · rw [abs_div, abs_neg, abs_of_pos hp, abs_of_pos h2s, le_div_iff₀ h2s]
        refine le_trans (mul_le_mul_of_nonneg_left (b := 2 * (sig * sig)) (c := 2 ^ 51) (by linarith) (by positivity)) (le_trans (by norm_num) h.1)
      · rw [abs_div, abs_neg, abs_of_pos hp, abs_of_pos h2s, div_le_iff₀ h2s]
        refine h.2.trans (le_trans (by norm_num) (mul_le_mul_of_nonneg_left (b := 2⁻¹ ^ 50) (c := 2 * (sig * sig)) (by linarith) (by positivity)))
  obtain ⟨r, er, wr⟩ := C.rd_rel0 (wn.div wt) (by linarith) hq
  refine ⟨r, ?_, wr.mono (by linarith)⟩
  have e2 : (2 : F) * fin s = fin (2 * s) := mul_fin 2 s
  rw [sub_fin, ed, mul_fin, ee, neg_fin, mul_fin, es, e2, et, div_fin ht, er]

/-- the computed cumulative probability -/
theorem Arith.Contract.cdf (C : f.Contract κ) {erf' : F → F} (E : ErfContract erf' κ) {v mu sig : ℝ} (hs0 : 2⁻¹ ^ 25 ≤ sig) (hs1 : sig ≤ 2 ^ 25) (hv : Moderate (v - mu)) :
    ∃ c, f.r (fin (1 / 2) * f.r (1 + erf' (f.r (f.r (fin v - fin mu) / f.r (fin sig * f.rd (Real.sqrt 2)))))) = fin c ∧ |c - gcdf mu sig v| ≤ 10 * κ := by
  have hκ := C.pos
  have hk : 100 * κ ≤ 1 := by have := C.small; norm_num at this ⊢; linarith
  have hhi : (10 : ℝ) ≤ flHi := by unfold flHi; norm_num
  obtain ⟨q, eq, wq⟩ := C.standardise hs0 hs1 hv
  obtain ⟨y, ey, hy⟩ := E.err q
  have h1 := erf_rel wq
  have h0 := abs_erf_le_one ((v - mu) / (sig * Real.sqrt 2))
  rw [abs_le] at h0 h1 hy
  obtain ⟨z, ez, hz⟩ := C.rd_abs (x := 1 + y) (by rw [abs_le]; constructor <;> linarith [h0.1, h0.2, h1.1, h1.2, hy.1, hy.2])
  have hz' : |z - (1 + y)| ≤ 4 * κ := hz.trans (by
    have : |1 + y| ≤ 3 := by rw [abs_le]; constructor <;> linarith [h0.1, h0.2, h1.1, h1.2, hy.1, hy.2]
    nlinarith)
  rw [abs_le] at hz'
  obtain ⟨w, ew, hw⟩ := C.rd_abs (x := 1 / 2 * z) (by rw [abs_le]; constructor <;> linarith [h0.1, h0.2, h1.1, h1.2, hy.1, hy.2, hz'.1, hz'.2])
  have hw' : |w - 1 / 2 * z| ≤ 3 * κ := hw.trans (by
    have : |1 / 2 * z| ≤ 2 := by rw [abs_le]; constructor <;> linarith [h0.1, h0.2, h1.1, h1.2, hy.1, hy.2, hz'.1, hz'.2]
    nlinarith)
  rw [abs_le] at hw'
  have e1 : (1 : F) + fin y = fin (1 + y) := add_fin 1 y
  have e2 : f.r (fin (1 + y)) = fin z := ez
  refine ⟨w, ?_, ?_⟩
  · rw [eq, ey, e1, e2, mul_fin]; exact ew
  · unfold gcdf
    rw [abs_le]; constructor <;> linarith [h1.1, h1.2, hy.1, hy.2, hz'.1, hz'.2, hw'.1, hw'.2]

/-- the prefactor `1 / (σ √(2π))` -/
theorem Arith.Contract.prefactor (C : f.Contract κ) {sig : ℝ} (hs0 : 2⁻¹ ^ 25 ≤ sig) (hs1 : sig ≤ 2 ^ 25) :
    ∃ n, f.r (1 / f.r (fin sig * f.rd (Real.sqrt (2 * Real.pi)))) = fin n ∧ Rel (6 * κ) (1 / (sig * Real.sqrt (2 * Real.pi))) n ∧
      2⁻¹ ^ 27 ≤ 1 / (sig * Real.sqrt (2 * Real.pi)) ∧ 1 / (sig * Real.sqrt (2 * Real.pi)) ≤ 2 ^ 25 := by
  have hκ := C.pos
  have hk : 100 * κ ≤ 1 := by have := C.small; norm_num at this ⊢; linarith
  have s0 : 0 < sig := lt_of_lt_of_le (by positivity) hs0
  obtain ⟨t0, t1⟩ := sqrt_two_pi_bounds
  obtain ⟨c, ec, wc⟩ := C.rd_rel0 (Rel.refl (x := Real.sqrt (2 * Real.pi))) (by norm_num) (.inr (normal3_pos t0 t1 (by norm_num) (by norm_num)))
  have hss0 : 2⁻¹ ^ 25 ≤ sig * Real.sqrt (2 * Real.pi) := by nlinarith
  have hss1 : sig * Real.sqrt (2 * Real.pi) ≤ 2 ^ 27 := by
    have := mul_le_mul hs1 t1 (by linarith) (by norm_num); exact this.trans (by norm_num)
  have hp : 0 < sig * Real.sqrt (2 * Real.pi) := mul_pos s0 (by linarith)
  obtain ⟨s, es, ws⟩ := C.rd_rel0 ((Rel.refl (x := sig)).mul wc) (by linarith) (.inr (normal3_pos hss0 hss1 (by norm_num) (by norm_num)))
  have hs' : s ≠ 0 := by
    obtain ⟨θ, -, rfl⟩ := ws
    exact mul_ne_zero hp.ne' (Real.exp_pos _).ne'
  have b0 : 2⁻¹ ^ 27 ≤ 1 / (sig * Real.sqrt (2 * Real.pi)) := by
    rw [le_div_iff₀ hp]; exact (mul_le_mul_of_nonneg_left hss1 (by positivity)).trans (by norm_num)
  have b1 : 1 / (sig * Real.sqrt (2 * Real.pi)) ≤ 2 ^ 25 := by
    rw [div_le_iff₀ hp]; exact le_trans (by norm_num) (mul_le_mul_of_nonneg_left hss0 (by positivity))
  obtain ⟨n, en, wn⟩ := C.rd_rel0 ((Rel.refl (x := 1)).div ws) (by linarith) (.inr (normal3_pos b0 b1 (by norm_num) (by norm_num)))
  refine ⟨n, ?_, wn.mono (by linarith), b0, b1⟩
  have ec' : f.rd (Real.sqrt (2 * Real.pi)) = fin c := ec
  have e1 : (1 : F) / fin s = fin (1 / s) := div_fin hs'
  rw [ec', mul_fin, es, e1, en]

/-- **C142.** `truncnorm_pdf` in rounded arithmetic: for widths and distances from the mean between `2⁻²⁵` and `2²⁵` (or zero distance), and points at most eight standard deviations from the mean, the returned number
is the exact density up to a factor whose logarithm is at most `κ (13 + 12 ((x - μ)/σ)² + 40 / P)`, where `P` is the probability of `[low, high]` under the untruncated normal: the smaller `P`, the larger the error. -/
theorem C142_error (C : f.Contract κ) {erf' : F → F} (E : ErfContract erf' κ) {x mu sig low high : ℝ} (hs0 : 2⁻¹ ^ 25 ≤ sig) (hs1 : sig ≤ 2 ^ 25)
    (hx : Moderate (x - mu)) (hl : Moderate (low - mu)) (hh : Moderate (high - mu)) (hlh : low < high) (hlx : low ≤ x) (hxh : x ≤ high) (h8 : |x - mu| ≤ 8 * sig)
    (hε : κ * (13 + 12 * ((x - mu) / sig) ^ 2 + 40 / (gcdf mu sig high - gcdf mu sig low)) ≤ 1) :
    ∃ p, truncnorm_pdfR f erf' (fin x) (fin mu) (fin sig) (fin low) (fin high) = fin p ∧
      Within (κ * (13 + 12 * ((x - mu) / sig) ^ 2 + 40 / (gcdf mu sig high - gcdf mu sig low)))
        (Real.exp (-((x - mu) * (x - mu)) / (2 * (sig * sig))) * (1 / (sig * Real.sqrt (2 * Real.pi)) / (gcdf mu sig high - gcdf mu sig low))) p := by
  have hκ := C.pos
  have hk : 100 * κ ≤ 1 := by have := C.small; norm_num at this ⊢; linarith
  have s0 : 0 < sig := lt_of_lt_of_le (by positivity) hs0
  have hP : 0 < gcdf mu sig high - gcdf mu sig low := sub_pos.2 (gcdf_strictMono s0 hlh)
  have hP1 : gcdf mu sig high - gcdf mu sig low ≤ 1 := by
    unfold gcdf
    have := erf_le_one ((high - mu) / (sig * Real.sqrt 2))
    have := neg_one_le_erf ((low - mu) / (sig * Real.sqrt 2))
    linarith
  obtain ⟨ch, ech, hch⟩ := C.cdf E hs0 hs1 hh
  obtain ⟨cl, ecl, hcl⟩ := C.cdf E hs0 hs1 hl
  generalize hPdef : gcdf mu sig high - gcdf mu sig low = P at *
  generalize hZdef : ((x - mu) / sig) ^ 2 = Z at *
  have hZ0 : 0 ≤ Z := by rw [← hZdef]; positivity
  have hZ64 : Z ≤ 64 := by
    rw [← hZdef, ← sq_abs, abs_div, abs_of_pos s0]
    have : |x - mu| / sig ≤ 8 := by rw [div_le_iff₀ s0]; exact h8
    have h0 : 0 ≤ |x - mu| / sig := by positivity
    nlinarith
  have hκZ : 0 ≤ κ * Z := by positivity
  have hκP : 0 ≤ κ * (40 / P) := by positivity
  have hε' : 13 * κ + 12 * (κ * Z) + κ * (40 / P) ≤ 1 := le_trans (le_of_eq (by ring)) hε
  have h40 : 40 * κ ≤ P := by
    have : κ * (40 / P) ≤ 1 := by linarith
    rw [← mul_div_assoc, div_le_one hP] at this; linarith
  have hPlo : 2⁻¹ ^ 45 ≤ P := by have := C.tiny; norm_num at this ⊢; linarith
  -- the denominator
  have hd : |ch - cl - P| ≤ κ * (20 / P) * |P| := by
    rw [abs_of_pos hP, mul_assoc, div_mul_cancel₀ _ hP.ne']
    rw [abs_le] at hch hcl ⊢
    constructor <;> linarith [hch.1, hch.2, hcl.1, hcl.2]
  have e20 : κ * (40 / P) = 2 * (κ * (20 / P)) := by ring
  have wd : Rel (κ * (40 / P)) P (ch - cl) := by
    rw [e20]; exact rel_of_abs (by positivity) (by linarith) hd
  obtain ⟨d, ed, wd'⟩ := C.rd_rel0 wd (by linarith) (.inr (normal3_pos hPlo hP1 (by norm_num) (by norm_num)))
  have hd0 : d ≠ 0 := by
    obtain ⟨θ, -, rfl⟩ := wd'
    exact mul_ne_zero hP.ne' (Real.exp_pos _).ne'
  -- the norm
  obtain ⟨n, en, wn, nb0, nb1⟩ := C.prefactor hs0 hs1
  have hn0 : 2⁻¹ ^ 27 ≤ 1 / (sig * Real.sqrt (2 * Real.pi)) / P := nb0.trans (le_div_self (le_trans (by positivity) nb0) hP hP1)
  have hn1 : 1 / (sig * Real.sqrt (2 * Real.pi)) / P ≤ 2 ^ 70 := by
    rw [div_le_iff₀ hP]
    exact nb1.trans (le_trans (by norm_num) (mul_le_mul_of_nonneg_left hPlo (by positivity)))
  obtain ⟨N, eN, wN⟩ := C.rd_rel0 (wn.div wd') (by linarith) (.inr (normal3_pos hn0 hn1 (by norm_num) (by norm_num)))
  -- the exponential
  obtain ⟨e, ee, we⟩ := C.exponent hs0 hs1 hx
  have hE : -((x - mu) * (x - mu)) / (2 * (sig * sig)) = -(Z / 2) := by
    rw [← hZdef]; field_simp
  rw [hE] at we ⊢
  have herr := we.err (by linarith)
  rw [abs_neg, abs_of_nonneg (by linarith : 0 ≤ Z / 2)] at herr
  have herr' : |e - -(Z / 2)| ≤ 12 * (κ * Z) := herr.trans (le_of_eq (by ring))
  have he80 : |e| ≤ 80 := by
    rw [abs_le] at herr' ⊢
    constructor <;> linarith [herr'.1, herr'.2]
  obtain ⟨g, eg, wg⟩ := C.exp_norm e he80
  have wexp : Rel (12 * (κ * Z) + κ) (Real.exp (-(Z / 2))) g := Rel.of_within (Real.exp_pos _) ((Within.of_abs_log herr').trans wg)
  have hexp0 : 2⁻¹ ^ 50 ≤ Real.exp (-(Z / 2)) := by
    have h1 : Real.exp (-32) ≤ Real.exp (-(Z / 2)) := Real.exp_le_exp.2 (by linarith)
    refine le_trans ?_ h1
    rw [Real.exp_neg]
    have h2 : Real.exp 32 = Real.exp 1 ^ 32 := by rw [← Real.exp_nat_mul]; norm_num
    have h3 : Real.exp 1 ^ 32 ≤ 2 ^ 50 := (pow_le_pow_left₀ (Real.exp_pos _).le Real.exp_one_lt_d9.le 32).trans (by norm_num)
    rw [h2, inv_pow]
    exact inv_anti₀ (pow_pos (Real.exp_pos _) _) h3
  have hexp1 : Real.exp (-(Z / 2)) ≤ 1 := Real.exp_le_one_iff.2 (by linarith)
  -- the product
  have hb0 : 2⁻¹ ^ 77 ≤ Real.exp (-(Z / 2)) * (1 / (sig * Real.sqrt (2 * Real.pi)) / P) :=
    le_trans (by norm_num) (mul_le_mul hexp0 hn0 (by positivity) (Real.exp_pos _).le)
  have hb1 : Real.exp (-(Z / 2)) * (1 / (sig * Real.sqrt (2 * Real.pi)) / P) ≤ 2 ^ 70 :=
    le_trans (mul_le_mul hexp1 hn1 (le_trans (by positivity) hn0) (by norm_num)) (by norm_num)
  obtain ⟨p, ep, wp⟩ := C.rd_rel0 (wexp.mul wN) (by linarith) (.inr (normal3_pos hb0 hb1 (by norm_num) (by norm_num)))
  refine ⟨p, ?_, Rel.within (le_trans (by positivity) hb0) (wp.mono (le_of_eq (by ring)))⟩
  unfold truncnorm_pdfR
  simp only [Bool.false_eq_true, if_false, lt_fin, gt_fin]
  rw [if_neg (by rintro (h | h) <;> linarith), ee, eg, ech, ecl, sub_fin, ed, en, div_fin hd0, eN, mul_fin, ep]

/-- **C142, where it fails.** If the interval lies eight or more standard deviations from the mean, both cumulative probabilities are computed as exactly 1 (or exactly 0), and the returned density
is `+inf` or NaN at every point of the interval. -/
theorem C142_tail_fails (C : f.Contract κ) {erf' : F → F} (E : ErfContract erf' κ) {x mu sig low high : ℝ} (hs0 : 2⁻¹ ^ 25 ≤ sig) (hs1 : sig ≤ 2 ^ 25)
    (hx : Moderate (x - mu)) (hl : Moderate (low - mu)) (hh : Moderate (high - mu)) (hlx : low ≤ x) (hxh : x ≤ high) (h8 : mu + 8 * sig ≤ low ∨ high ≤ mu - 8 * sig) :
    truncnorm_pdfR f erf' (fin x) (fin mu) (fin sig) (fin low) (fin high) = pinf ∨ truncnorm_pdfR f erf' (fin x) (fin mu) (fin sig) (fin low) (fin high) = nan := by
  have hκ := C.pos
  have hk : 100 * κ ≤ 1 := by have := C.small; norm_num at this ⊢; linarith
  have s0 : 0 < sig := lt_of_lt_of_le (by positivity) hs0
  have hlh : low ≤ high := hlx.trans hxh
  obtain ⟨t0, t1⟩ := sqrt_two_bounds
  have sp : 0 < sig * Real.sqrt 2 := mul_pos s0 (by linarith)
  have hexp : 0.9 ≤ Real.exp (-(8 * κ)) := by have := Real.add_one_le_exp (-(8 * κ)); linarith
  -- the two cumulative probabilities are the same number
  have hc : ∃ c : ℝ, ∀ v, v = low ∨ v = high → f.r (fin (1 / 2) * f.r (1 + erf' (f.r (f.r (fin v - fin mu) / f.r (fin sig * f.rd (Real.sqrt 2)))))) = fin c := by
    rcases h8 with h8 | h8
    · refine ⟨1, fun v hv => ?_⟩
      have hv' : Moderate (v - mu) := by rcases hv with rfl | rfl <;> assumption
      have hv8 : 8 * sig ≤ v - mu := by rcases hv with rfl | rfl <;> linarith
      obtain ⟨q, eq, θ, hθ, rfl⟩ := C.standardise hs0 hs1 hv'
      have h1 : 5.6 ≤ (v - mu) / (sig * Real.sqrt 2) := by
        rw [le_div_iff₀ sp]; refine le_trans ?_ hv8
        nlinarith
      have h2 : 0.9 ≤ Real.exp θ := hexp.trans (Real.exp_le_exp.2 (abs_le.1 hθ).1)
      have h3 : 5 ≤ (v - mu) / (sig * Real.sqrt 2) * Real.exp θ := le_trans (by norm_num) (mul_le_mul h1 h2 (by norm_num) (by linarith))
      have e1 : f.r (1 + fin 1) = fin 2 := by
        have : (1 : F) + fin 1 = fin 2 := (add_fin 1 1).trans (by norm_num)
        rw [this]; exact_mod_cast C.rd_nat 2 (by norm_num)
      have e2 : f.r (fin (1 / 2) * fin 2) = fin 1 := by
        rw [mul_fin]
        have : (1 / 2 * 2 : ℝ) = 1 := by norm_num
        rw [this]; exact_mod_cast C.rd_nat 1 (by norm_num)
      rw [eq, E.sat _ h3, e1, e2]
    · refine ⟨0, fun v hv => ?_⟩
      have hv' : Moderate (v - mu) := by rcases hv with rfl | rfl <;> assumption
      have hv8 : v - mu ≤ -(8 * sig) := by rcases hv with rfl | rfl <;> linarith
      obtain ⟨q, eq, θ, hθ, rfl⟩ := C.standardise hs0 hs1 hv'
      have h1 : (v - mu) / (sig * Real.sqrt 2) ≤ -5.6 := by
        rw [div_le_iff₀ sp]; refine hv8.trans ?_
        nlinarith
      have h2 : 0.9 ≤ Real.exp θ := hexp.trans (Real.exp_le_exp.2 (abs_le.1 hθ).1)
      have h3 : (v - mu) / (sig * Real.sqrt 2) * Real.exp θ ≤ -5 := by nlinarith
      have e1 : f.r (1 + fin (-1)) = fin 0 := by
        have : (1 : F) + fin (-1) = fin 0 := (add_fin 1 (-1)).trans (by norm_num)
        rw [this]; exact C.rd_zero
      have e2 : f.r (fin (1 / 2) * fin 0) = fin 0 := by
        rw [mul_fin, mul_zero]; exact C.rd_zero
      rw [eq, E.sat_neg _ h3, e1, e2]
  obtain ⟨c, hc⟩ := hc
  obtain ⟨n, en, ⟨θ, -, rfl⟩, nb0, -⟩ := C.prefactor hs0 hs1
  have n0 : 0 < 1 / (sig * Real.sqrt (2 * Real.pi)) * Real.exp θ := mul_pos (lt_of_lt_of_le (by positivity) nb0) (Real.exp_pos _)
  obtain ⟨e, ee, φ, hφ, hee⟩ := C.exponent hs0 hs1 hx
  have hz : f.r (fin c - fin c) = fin 0 := by rw [sub_fin, sub_self]; exact C.rd_zero
  have hprob : ∃ g, f.exp (fin e) = fin g ∧ 0 ≤ g := by
    have hneg : e ≤ 0 := by
      rw [hee]
      refine mul_nonpos_of_nonpos_of_nonneg ?_ (Real.exp_pos _).le
      exact div_nonpos_of_nonpos_of_nonneg (by nlinarith [mul_self_nonneg (x - mu)]) (by positivity)
    by_cases h80 : -80 ≤ e
    · obtain ⟨g, eg, wg⟩ := C.exp_norm e (by rw [abs_le]; constructor <;> linarith)
      exact ⟨g, eg, le_trans (by positivity) wg.1⟩
    · obtain ⟨g, eg, h0, -⟩ := C.exp_small e (not_le.1 h80)
      exact ⟨g, eg, h0⟩
  obtain ⟨g, eg, g0⟩ := hprob
  have hr : truncnorm_pdfR f erf' (fin x) (fin mu) (fin sig) (fin low) (fin high) = f.r (fin g * pinf) := by
    unfold truncnorm_pdfR
    simp only [Bool.false_eq_true, if_false, lt_fin, gt_fin]
    rw [if_neg (by rintro (h | h) <;> linarith), ee, eg, hc high (.inr rfl), hc low (.inl rfl), hz, en, div_fin_zero, infOfSign_pos n0]
    rfl
  rw [hr, fin_mul_pinf]
  rcases g0.eq_or_lt with h | h
  · right; rw [← h, infOfSign_zero]; rfl
  · left; rw [infOfSign_pos h]; rfl

/-- without rounding this is `truncnorm_pdf` -/
theorem C142_exact (xx mu sig low high : F) (logFlag : Bool) : truncnorm_pdfR Arith.exact erfF xx mu sig low high logFlag = truncnorm_pdf xx mu sig low high logFlag := by
  have e : ∀ a : F, Arith.exact.r a = a := fun a => by cases a <;> rfl
  have e2 : pow (2 : F) (fin (1 / 2)) = fin (Real.sqrt 2) := pow_half_fin (by norm_num)
  have e3 : pow ((2 : F) * fin Real.pi) (fin (1 / 2)) = fin (Real.sqrt (2 * Real.pi)) := by
    have : (2 : F) * fin Real.pi = fin (2 * Real.pi) := mul_fin 2 _
    rw [this]; exact pow_half_fin (by have := Real.pi_pos; positivity)
  have e4 : ∀ a : F, pow a 2 = a * a := by
    intro a
    cases a with
    | fin x => exact pow_two_fin x
    | pinf => show (if (2:ℝ) = 0 then _ else if (0:ℝ) < 2 then _ else _) = _; norm_num
    | ninf =>
      show (if (2:ℝ) = 0 then _ else if (0:ℝ) < 2 then (if ∃ n : ℤ, Odd n ∧ (2:ℝ) = n then _ else _) else _) = _
      rw [if_neg (by norm_num), if_pos (by norm_num), if_neg]
      · rfl
      · rintro ⟨n, hn, h2⟩
        have : n = 2 := by exact_mod_cast h2.symm
        rw [this] at hn; exact absurd hn (by decide)
    | nan => show (if (2 : F) = fin 0 then _ else _) = _; rw [if_neg (by intro h; have := (fin_inj 2 0).1 h; norm_num at this)]; rfl
  simp only [truncnorm_pdfR, truncnorm_pdf, e, e2, e3, e4]; rfl

/-! ### single precision -/

/-- the correctly rounded error function of single precision -/
def erf32 (a : F) : F := match erfF a with | fin x => rd32 x | v => v

theorem rd32_below_one {x : ℝ} (h1 : 1 - 2⁻¹ ^ 25 < x) (h2 : x ≤ 1) : rd32 x = fin 1 := by
  rcases h2.eq_or_lt with rfl | h2
  · exact_mod_cast rd32_nat (n := 1) (by norm_num)
  have hx : 0 < x := by norm_num at h1; linarith
  have hlog : Int.log 2 |x| = -1 := by
    rw [abs_of_pos hx]
    refine le_antisymm ?_ ?_
    · have : Int.log 2 x < 0 := by
        rw [← Int.lt_zpow_iff_log_lt (by norm_num) hx]; simpa using h2
      omega
    · rw [← Int.zpow_le_iff_le_log (by norm_num) hx]; norm_num at h1 ⊢; linarith
  have hu : ulp32 x = 2⁻¹ ^ 24 := by unfold ulp32; rw [hlog]; norm_num
  have hr : round (x / ulp32 x) = 2 ^ 24 := by
    rw [hu, round_eq, Int.floor_eq_iff]
    norm_num at h1 ⊢
    constructor <;> linarith
  have hv : (round (x / ulp32 x) : ℝ) * ulp32 x = 1 := by rw [hr, hu]; norm_num
  rw [rd32_eq (by rw [hv]; norm_num), hv]

theorem rd32_above_neg_one {x : ℝ} (h1 : x < -1 + 2⁻¹ ^ 25) (h2 : -1 ≤ x) : rd32 x = fin (-1) := by
  have hx : x < 0 := by norm_num at h1; linarith
  rcases h2.eq_or_lt with rfl | h2
  · refine rd32_int (-2 ^ 23) ?_ (by norm_num)
    have hl : Int.log 2 |(-1 : ℝ)| = 0 := by rw [abs_neg, abs_one, Int.log_one_right]
    unfold ulp32; rw [hl]; norm_num
  have hlog : Int.log 2 |x| = -1 := by
    rw [abs_of_neg hx]
    refine le_antisymm ?_ ?_
    · have : Int.log 2 (-x) < 0 := by
        rw [← Int.lt_zpow_iff_log_lt (by norm_num) (by linarith)]; norm_num; linarith
      omega
    · rw [← Int.zpow_le_iff_le_log (by norm_num) (by linarith)]; norm_num at h1 ⊢; linarith
  have hu : ulp32 x = 2⁻¹ ^ 24 := by unfold ulp32; rw [hlog]; norm_num
  have hr : round (x / ulp32 x) = -2 ^ 24 := by
    rw [hu, round_eq, Int.floor_eq_iff]
    norm_num at h1 ⊢
    constructor <;> linarith
  have hv : (round (x / ulp32 x) : ℝ) * ulp32 x = -1 := by rw [hr, hu]; norm_num
  rw [rd32_eq (by rw [hv]; norm_num), hv]

theorem erf_tail {x : ℝ} (hx : 5 ≤ x) : 1 - 2⁻¹ ^ 25 < erf x := by
  have h := one_sub_erf_le (x := x) (by linarith)
  have h2 : Real.exp (-x ^ 2) ≤ Real.exp (-25) := Real.exp_le_exp.2 (by nlinarith)
  have h3 : Real.exp (-25) < 2⁻¹ ^ 25 := by
    have e : Real.exp (-25) = (Real.exp 1)⁻¹ ^ 25 := by rw [inv_pow, ← Real.exp_nat_mul, ← Real.exp_neg]; norm_num
    rw [e]
    refine pow_lt_pow_left₀ (inv_strictAnti₀ two_pos ?_) (inv_pos.2 (Real.exp_pos _)).le (by norm_num)
    have := Real.exp_one_gt_d9; linarith
  linarith

theorem erf32_contract : ErfContract erf32 (2⁻¹ ^ 23) where
  err := fun x => by
    have h := abs_erf_le_one x
    by_cases hl : flLo ≤ |erf x|
    · obtain ⟨y, hy, e⟩ := rd32_norm hl (h.trans flHi_one)
      refine ⟨y, hy, e.trans ?_⟩
      calc (2⁻¹ : ℝ) ^ 24 * |erf x| ≤ 2⁻¹ ^ 24 * 1 := mul_le_mul_of_nonneg_left h (by positivity)
        _ ≤ 2⁻¹ ^ 23 := by norm_num
    · obtain ⟨y, hy, e⟩ := rd32_sub (not_le.1 hl)
      exact ⟨y, hy, e.trans (by norm_num)⟩
  sat := fun x hx => rd32_below_one (erf_tail hx) (erf_le_one x)
  sat_neg := fun x hx => by
    have h := erf_tail (x := -x) (by linarith)
    rw [erf_neg] at h
    exact rd32_above_neg_one (by linarith) (neg_one_le_erf x)

/-- single precision, standard normal on `[8, 9]`: no number is returned anywhere -/
example {x : ℝ} (h1 : 8 ≤ x) (h2 : x ≤ 9) :
    truncnorm_pdfR binary32 erf32 (fin x) (fin 0) (fin 1) (fin 8) (fin 9) = pinf ∨ truncnorm_pdfR binary32 erf32 (fin x) (fin 0) (fin 1) (fin 8) (fin 9) = nan :=
  C142_tail_fails binary32_contract erf32_contract (by norm_num) (by norm_num)
    (.inr (by rw [sub_zero, abs_of_pos (by linarith)]; constructor <;> norm_num <;> linarith))
    (.inr (by norm_num)) (.inr (by norm_num)) h1 h2 (.inl (by norm_num))

/-- single precision, standard normal on `[-1, 1]`: relative error at most `2⁻¹⁵` -/
example {x : ℝ} (hx0 : 1 / 100 ≤ x) (h2 : x ≤ 1) :
    ∃ p, truncnorm_pdfR binary32 erf32 (fin x) (fin 0) (fin 1) (fin (-1)) (fin 1) = fin p ∧
      Within (2⁻¹ ^ 15) (Real.exp (-((x - 0) * (x - 0)) / (2 * (1 * 1))) * (1 / (1 * Real.sqrt (2 * Real.pi)) / (gcdf 0 1 1 - gcdf 0 1 (-1)))) p := by
  have hmass : 1 / 4 ≤ gcdf 0 1 1 - gcdf 0 1 (-1) := by
    have h := Convex.mul_sub_le_image_sub_of_le_deriv (f := gcdf 0 1) (D := Set.Icc (-1) 1) (C := 1 / 8) (convex_Icc _ _)
      (fun y _ => (gcdf_hasDerivAt one_pos y).continuousAt.continuousWithinAt) (fun y _ => (gcdf_hasDerivAt one_pos y).differentiableAt.differentiableWithinAt)
      (fun y hy => by
        rw [interior_Icc] at hy
        rw [(gcdf_hasDerivAt one_pos y).deriv]
        have h1 : 1 / 2 ≤ Real.exp (-((y - 0) * (y - 0)) / (2 * (1 * 1))) := by
          have := Real.add_one_le_exp (-((y - 0) * (y - 0)) / (2 * (1 * 1)))
          have hyy : y * y ≤ 1 := by nlinarith [hy.1, hy.2]
          have e : -((y - 0) * (y - 0)) / (2 * (1 * 1)) = -(y * y / 2) := by ring
          rw [e] at this ⊢; linarith
        have h2 : 1 / 3 ≤ 1 / (1 * Real.sqrt (2 * Real.pi)) := by
          rw [one_mul]; exact one_div_le_one_div_of_le (by linarith [sqrt_two_pi_bounds.1]) sqrt_two_pi_bounds.2
        exact le_trans (by norm_num) (mul_le_mul h1 h2 (by norm_num) (Real.exp_pos _).le))
      (-1) (by norm_num) 1 (by norm_num) (by norm_num)
    linarith
  have hb : (2⁻¹ : ℝ) ^ 23 * (13 + 12 * ((x - 0) / 1) ^ 2 + 40 / (gcdf 0 1 1 - gcdf 0 1 (-1))) ≤ 2⁻¹ ^ 15 := by
    have h3 : 40 / (gcdf 0 1 1 - gcdf 0 1 (-1)) ≤ 160 := by
      rw [div_le_iff₀ (by linarith)]; linarith
    have h4 : ((x - 0) / 1) ^ 2 ≤ 1 := by rw [sub_zero, div_one]; nlinarith
    calc (2⁻¹ : ℝ) ^ 23 * (13 + 12 * ((x - 0) / 1) ^ 2 + 40 / (gcdf 0 1 1 - gcdf 0 1 (-1))) ≤ 2⁻¹ ^ 23 * (13 + 12 * 1 + 160) :=
          mul_le_mul_of_nonneg_left (by linarith) (by positivity)
      _ ≤ 2⁻¹ ^ 15 := by norm_num
  obtain ⟨p, h1, hw⟩ := C142_error (x := x) (mu := 0) (sig := 1) (low := -1) (high := 1) binary32_contract erf32_contract (by norm_num) (by norm_num)
    (.inr (by rw [sub_zero, abs_of_pos (by linarith)]; constructor <;> norm_num <;> linarith)) (.inr (by norm_num)) (.inr (by norm_num)) (by norm_num) (by linarith) h2
    (by rw [sub_zero, abs_of_pos (by linarith)]; linarith) (hb.trans (by norm_num))
  refine ⟨p, h1, hw.mono hb ?_⟩
  have : 0 < gcdf 0 1 1 - gcdf 0 1 (-1) := by linarith
  positivity

end GW
end
