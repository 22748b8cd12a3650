import Verif.Model.RoundingSmooth
import Verif.Props.RoundingLogistic
import Verif.Props.RoundingParametricExact

/-! # Properties C153 and C154: the low-mass taper and the masses with it in single precision -/

open Finset
noncomputable section
open Classical
namespace GW
open F

variable {f : Arith} {κ : ℝ}

theorem Arith.Contract.unit_fin (C : f.Contract κ) {E e ε : ℝ} (hE0 : 0 ≤ E) (hE : 1 + E ≤ 2 ^ 120) (hε : ε ≤ 1 / 2) (w : Within ε (1 + E) (1 + e)) :
    ∃ v, f.r (1 / f.r (fin e + 1)) = fin v ∧ Within (ε + 4 * κ) (1 / (1 + E)) v := by
  have hκ := C.pos
  have hs := C.small
  norm_num at hs
  have hrg : Rg 120 (1 + E) := ⟨(pow_le_one₀ (by norm_num) (by norm_num)).trans (by linarith), hE⟩
  obtain ⟨d, ed, wd⟩ := C.rdW hrg (by norm_num) (by linarith) w
  obtain ⟨v, ev, rv⟩ := C.rel_round ((Rel.refl (x := 1)).div (Rel.of_within hrg.pos wd)) (by linarith)
    (by rw [le_div_iff₀ hrg.pos]
        calc (2⁻¹:ℝ) ^ 122 * (1 + E) ≤ 2⁻¹ ^ 122 * 2 ^ 120 := mul_le_mul_of_nonneg_left hE (by positivity)
          _ ≤ 1 := by norm_num)
    (by rw [div_le_iff₀ hrg.pos]; nlinarith)
  have hd : d ≠ 0 := (wd.pos hrg.pos).ne'
  refine ⟨v, ?_, (rv.within (by positivity)).mono (by linarith) (by positivity)⟩
  have ed' : f.r (fin e + 1) = fin d := by rw [one_def, add_fin, add_comm]; exact ed
  rw [ed', one_def, div_fin hd, ev]

/-- the exponential of a number of at most one, known up to the error `η` while below `M` -/
theorem Arith.Contract.exp_le_one (C : f.Contract κ) {T u : ℝ} (hu : u ≤ 1) : ∃ e, f.exp (fin u) = fin e ∧ |e - Real.exp T| ≤ 6 * κ + |Real.exp u - Real.exp T| := by
  have hκ := C.pos
  have hs := C.small
  norm_num at hs
  obtain ⟨e, ee, h2⟩ : ∃ e, f.exp (fin u) = fin e ∧ |e - Real.exp u| ≤ 6 * κ := by
    by_cases h80 : u < -80
    · obtain ⟨e, ee, e0, e1⟩ := C.exp_small u h80
      refine ⟨e, ee, ?_⟩
      have t := C.tiny
      have a : Real.exp u ≤ 2⁻¹ ^ 50 := by
        have a1 : Real.exp u ≤ Real.exp (-50) := Real.exp_le_exp.2 (by linarith)
        have a2 : (2:ℝ) ≤ Real.exp 1 := by linarith [Real.add_one_le_exp (1:ℝ)]
        have a3 : Real.exp (-50) = (Real.exp 1)⁻¹ ^ 50 := by rw [← Real.exp_neg, ← Real.exp_nat_mul]; norm_num
        rw [a3] at a1
        exact a1.trans (pow_le_pow_left₀ (by positivity) (inv_anti₀ (by norm_num) a2) 50)
      have b : e ≤ 2⁻¹ ^ 50 := e1.trans (by norm_num)
      rw [abs_le]
      constructor <;> linarith [Real.exp_pos u]
    · obtain ⟨e, ee, w⟩ := C.exp_norm u (by rw [abs_le]; constructor <;> linarith)
      refine ⟨e, ee, (w.abs_sub_le hκ.le (by linarith) (Real.exp_pos u).le).trans ?_⟩
      have : Real.exp u ≤ 3 := (Real.exp_le_exp.2 hu).trans (by linarith [Real.exp_one_lt_d9])
      nlinarith
  refine ⟨e, ee, ?_⟩
  rw [show e - Real.exp T = (e - Real.exp u) + (Real.exp u - Real.exp T) by ring]
  exact (abs_add_le _ _).trans (by linarith)

/-- a mass in the window of the taper, not in its outermost part at the upper end: the width is `dx`, the distance to the lower end `y` -/
structure TaperPoint (κ dx y : ℝ) : Prop where
  width : Rg 20 dx
  low : (2⁻¹:ℝ) ^ 40 ≤ y
  high : 300 * κ * dx ≤ dx - y

/-- the exponent of the taper -/
theorem Arith.Contract.taper_arg (C : f.Contract κ) {dx x xmin : ℝ} (h : TaperPoint κ dx (x - xmin)) :
    ∃ u, f.r (f.r (fin dx / f.r (fin x - fin xmin)) + f.r (fin dx / f.r (f.r (fin x - fin xmin) - fin dx))) = fin u ∧
      |u - taperExp dx (x - xmin)| ≤ κ * (10 * (dx / (x - xmin)) + 27 * (dx / (dx - (x - xmin))) ^ 2) ∧ 300 * κ * (dx / (dx - (x - xmin))) ≤ 1 := by
  have hκ := C.pos
  have hs := C.small
  have ht := C.tiny
  have w0 := h.width.pos
  obtain ⟨w1, w2⟩ := h.width
  have hlow := h.low
  have hhigh := h.high
  generalize hy : x - xmin = y at *
  have y0 : 0 < y := lt_of_lt_of_le (by positivity) hlow
  have z0 : 0 < dx - y := lt_of_lt_of_le (by positivity) hhigh
  have hydx : y ≤ dx := by linarith
  set A := dx / y with hA
  set B := dx / (dx - y) with hB
  have A1 : 1 ≤ A := by rw [hA, one_le_div y0]; linarith
  have B1 : 1 ≤ B := by rw [hB, one_le_div z0]; linarith
  have hBκ : 300 * κ * B ≤ 1 := by rw [hB, ← mul_div_assoc, div_le_one z0]; exact hhigh
  have A2 : A ≤ 2 ^ 60 := by
    rw [hA, div_le_iff₀ y0]
    calc dx ≤ 2 ^ 60 * 2⁻¹ ^ 40 := w2.trans (by norm_num)
      _ ≤ _ := mul_le_mul_of_nonneg_left hlow (by positivity)
  have z1 : (2⁻¹:ℝ) ^ 70 ≤ dx - y := by
    refine le_trans ?_ hhigh
    calc (2⁻¹:ℝ) ^ 70 = 1 * 2⁻¹ ^ 50 * 2⁻¹ ^ 20 := by norm_num
      _ ≤ 300 * κ * dx := mul_le_mul (mul_le_mul (by norm_num) ht (by positivity) (by norm_num)) w1 (by positivity) (by positivity)
  have B2 : B ≤ 2 ^ 90 := by
    rw [hB, div_le_iff₀ z0]
    calc dx ≤ 2 ^ 90 * 2⁻¹ ^ 70 := w2.trans (by norm_num)
      _ ≤ _ := mul_le_mul_of_nonneg_left z1 (by positivity)
  norm_num at hs
  obtain ⟨d, ed, rd⟩ := C.fine_round (Rel.refl (x := y)) (by norm_num) (show 40 ≤ 124 by norm_num) (.inr ⟨by rw [abs_of_pos y0]; exact hlow, by rw [abs_of_pos y0]; exact (hydx.trans w2).trans (by norm_num)⟩)
  have fA : Fine 60 (dx / y) := .inr ⟨by rw [abs_of_pos (by positivity)]; exact le_trans (pow_le_one₀ (by norm_num) (by norm_num)) A1, by rw [abs_of_pos (by positivity)]; exact A2⟩
  obtain ⟨a, ea, ra⟩ := C.fine_round ((Rel.refl (x := dx)).div rd) (by linarith) (by norm_num) fA
  have hd0 : 0 < d := rd.pos y0
  have hd := rd.err (by linarith)
  rw [abs_of_pos y0] at hd
  have hdz : |d - dx - (y - dx)| ≤ (4 * κ * B) * |y - dx| := by
    rw [show d - dx - (y - dx) = d - y by ring, abs_of_neg (by linarith : y - dx < 0)]
    have e : B * (dx - y) = dx := by rw [hB, div_mul_cancel₀ _ z0.ne']
    have : 4 * κ * B * -(y - dx) = 4 * κ * dx := by
      rw [show 4 * κ * B * -(y - dx) = 4 * κ * (B * (dx - y)) by ring, e]
    rw [this]
    nlinarith
  have rz0 := rel_of_abs (by positivity) (by linarith) hdz
  have fz : Fine 70 (y - dx) := .inr ⟨by rw [abs_of_neg (by linarith)]; linarith, by rw [abs_of_neg (by linarith)]; norm_num at w2 ⊢; linarith⟩
  obtain ⟨z, ez, rz⟩ := C.fine_round rz0 (by linarith) (by norm_num) fz
  have hz0 : z ≠ 0 := by
    obtain ⟨θ, -, rfl⟩ := rz
    exact mul_ne_zero (by linarith) (Real.exp_pos θ).ne'
  have eB : dx / (y - dx) = -B := by rw [hB, ← neg_sub dx y, div_neg]
  have fB : Fine 90 (dx / (y - dx)) := by
    rw [eB]
    exact .inr ⟨by rw [abs_neg, abs_of_pos (by linarith)]; exact le_trans (pow_le_one₀ (by norm_num) (by norm_num)) B1, by rw [abs_neg, abs_of_pos (by linarith)]; exact B2⟩
  obtain ⟨b, eb, rb⟩ := C.fine_round ((Rel.refl (x := dx)).div rz) (by linarith) (by norm_num) fB
  have hκB : κ ≤ κ * B := le_mul_of_one_le_right hκ.le B1
  have ha := ra.err (by linarith)
  have hb := (rb.mono (show _ ≤ 12 * (κ * B) by linarith)).err (by linarith)
  rw [abs_of_pos (by positivity : 0 < dx / y)] at ha
  rw [eB, abs_neg, abs_of_pos (by linarith : 0 < B)] at hb
  have hT : taperExp dx y = A + -B := by unfold taperExp; rw [eB]
  have hsum : |a + b - taperExp dx y| ≤ 8 * κ * A + 24 * (κ * B) * B := by
    rw [hT, show a + b - (A + -B) = (a - A) + (b - -B) by ring]
    refine (abs_add_le _ _).trans ?_
    have : |a - A| ≤ 8 * κ * A := ha.trans (by rw [hA]; nlinarith [div_pos w0 y0])
    linarith
  have habs : |taperExp dx y| ≤ A + B := by rw [hT, abs_le]; constructor <;> linarith
  obtain ⟨u, eu, hu⟩ := C.rdA (K := 2 * A + 2 * B) (by nlinarith) (by norm_num at A2 B2 ⊢; linarith) hsum
  refine ⟨u, ?_, hu.trans ?_, hBκ⟩
  · have e1 : fin dx / fin d = fin (dx / d) := div_fin hd0.ne'
    have e2 : fin dx / fin z = fin (dx / z) := div_fin hz0
    rw [sub_fin, hy, ed, e1, ea, sub_fin, ez, e2, eb, add_fin]
    exact eu
  · have hB2 : 1 + 2 * B ≤ 3 * B ^ 2 := by nlinarith
    nlinarith

/-- **C153.** The taper in its window, except for the outermost part at the upper end and where it is below `exp (-79)`: relative error a multiple of the rounding unit, growing towards the lower end like the
logarithm of the value itself. -/
theorem C153_taper (C : f.Contract κ) {dx x xmin : ℝ} (h : TaperPoint κ dx (x - xmin)) (hE : taperExp dx (x - xmin) ≤ 79) :
    ∃ v, smoothR f (fin dx) (fin x) (fin xmin) = fin v ∧ Within (κ * (402 + 10 * (dx / (x - xmin)))) (1 / (Real.exp (taperExp dx (x - xmin)) + 1)) v := by
  have hκ := C.pos
  have hs := C.small
  norm_num at hs
  obtain ⟨u, eu, hu, hBκ⟩ := C.taper_arg h
  have w0 := h.width.pos
  have y0 : 0 < x - xmin := lt_of_lt_of_le (by positivity) h.low
  have z0 : 0 < dx - (x - xmin) := lt_of_lt_of_le (by positivity) h.high
  have hcond : lt (fin x) (f.r (fin xmin + fin dx)) ∨ ge (fin x) (fin xmin) := .inr (by simp; linarith)
  unfold smoothR
  simp only [if_pos hcond, eu]
  have hT : taperExp dx (x - xmin) = dx / (x - xmin) - dx / (dx - (x - xmin)) := by
    unfold taperExp; rw [← neg_sub dx (x - xmin), div_neg]; ring
  generalize x - xmin = y at *
  set A := dx / y with hA
  set B := dx / (dx - y) with hB
  set T := taperExp dx y with hTd
  have A1 : 1 ≤ A := by rw [hA, one_le_div y0]; linarith
  have B1 : 1 ≤ B := by rw [hB, one_le_div z0]; linarith
  have hup : 1 + Real.exp T ≤ 2 ^ 120 := by
    have a1 : Real.exp T ≤ Real.exp 1 ^ 79 := by rw [← Real.exp_nat_mul]; exact Real.exp_le_exp.2 (by norm_num; linarith)
    have a2 : Real.exp 1 ^ 79 ≤ 2.72 ^ 79 := pow_le_pow_left₀ (Real.exp_pos 1).le (by linarith [Real.exp_one_lt_d9]) 79
    have a3 : (2.72:ℝ) ^ 79 ≤ 2 ^ 120 - 1 := by norm_num
    linarith
  have hu' := abs_le.1 hu
  rw [add_comm (Real.exp T) 1]
  rcases le_total y (dx / 2) with hy | hy
  · have B2 : B ≤ 2 := by rw [hB, div_le_iff₀ z0]; linarith
    have A3 : A ≤ 81 := by linarith
    have hsq : B ^ 2 ≤ 4 := by nlinarith
    have hδ : κ * (10 * A + 27 * B ^ 2) ≤ κ * (10 * A + 108) := mul_le_mul_of_nonneg_left (by linarith) hκ.le
    have hδ' : κ * (10 * A + 108) ≤ 1 / 4 := by nlinarith
    obtain ⟨e, ee, we⟩ := C.expA (by rw [abs_le]; constructor <;> linarith) (hu.trans hδ)
    obtain ⟨v, ev, wv⟩ := C.unit_fin (Real.exp_pos T).le hup (by linarith) ((Within.refl' (by nlinarith) zero_le_one).add we)
    refine ⟨v, by rw [ee, ev], wv.mono (by nlinarith) (by positivity)⟩
  · have A2 : A ≤ 2 := by rw [hA, div_le_iff₀ y0]; linarith
    have B2 : 2 ≤ B := by rw [hB, le_div_iff₀ z0]; linarith
    have hδ : κ * (10 * A + 27 * B ^ 2) ≤ κ * (20 + 27 * B ^ 2) := mul_le_mul_of_nonneg_left (by linarith) hκ.le
    have hδ2 : κ * (20 + 27 * B ^ 2) ≤ 0.005 + 0.09 * B := by nlinarith
    have hM : u ≤ 2.005 - 0.91 * B := by linarith
    have hM' : T ≤ 2.005 - 0.91 * B := by linarith
    have key : (20 + 27 * B ^ 2) * Real.exp (2.005 - 0.91 * B) ≤ 190 := by
      have s := Real.sum_le_exp_of_nonneg (show 0 ≤ 0.91 * B by linarith) 4
      simp only [sum_range_succ, sum_range_zero, Nat.factorial] at s
      norm_num at s
      have e2 : Real.exp 2.005 ≤ 7.43 := by
        have a1 : Real.exp 2.005 = Real.exp 1 ^ 2 * Real.exp 0.005 := by rw [← Real.exp_nat_mul, ← Real.exp_add]; norm_num
        have a2 : Real.exp 1 ^ 2 ≤ 2.7182818286 ^ 2 := pow_le_pow_left₀ (Real.exp_pos 1).le (by linarith [Real.exp_one_lt_d9]) 2
        have a3 : Real.exp 0.005 ≤ 1.0051 := by
          have := Real.abs_exp_sub_one_sub_id_le (x := 0.005) (by norm_num)
          have := (abs_le.1 this).2
          norm_num at this ⊢; linarith
        rw [a1]
        calc _ ≤ (2.7182818286:ℝ) ^ 2 * 1.0051 := mul_le_mul a2 a3 (Real.exp_pos _).le (by positivity)
          _ ≤ 7.43 := by norm_num
      have e3 : Real.exp (2.005 - 0.91 * B) = Real.exp 2.005 / Real.exp (0.91 * B) := Real.exp_sub _ _
      rw [e3, ← mul_div_assoc, div_le_iff₀ (Real.exp_pos _)]
      have e4 : (20 + 27 * B ^ 2) * Real.exp 2.005 ≤ (20 + 27 * B ^ 2) * 7.43 := mul_le_mul_of_nonneg_left e2 (by positivity)
      norm_num at e4 ⊢
      nlinarith [mul_nonneg (by linarith : 0 ≤ B) (sq_nonneg (B - 2.6))]
    have hexp : |Real.exp u - Real.exp T| ≤ 190 * κ := by
      refine (exp_diff_le hM hM').trans ?_
      have := mul_le_mul_of_nonneg_right (hu.trans hδ) (Real.exp_pos (2.005 - 0.91 * B)).le
      nlinarith
    obtain ⟨e, ee, he⟩ := C.exp_le_one (T := T) (u := u) (by norm_num at hM; linarith)
    have w : Within (392 * κ) (1 + Real.exp T) (1 + e) := by
      have hp := Real.exp_pos T
      have := within_of_rel (κ := 196 * κ) (x := 1 + Real.exp T) (y := 1 + e) (by linarith) (by linarith) (by linarith) (by
        rw [show 1 + e - (1 + Real.exp T) = e - Real.exp T by ring, abs_of_pos (by linarith : 0 < 1 + Real.exp T)]
        nlinarith)
      exact this.mono (by linarith) (by linarith)
    obtain ⟨v, ev, wv⟩ := C.unit_fin (Real.exp_pos T).le hup (by linarith) w
    exact ⟨v, by rw [ee, ev], wv.mono (by nlinarith) (by positivity)⟩

/-- **C153.** Without rounding this is the taper of C19, in its window. -/
theorem C153_exact {dx x xmin : ℝ} (hdx : 0 < dx) (h1 : xmin < x) (h2 : x < xmin + dx) : smoothR Arith.exact (fin dx) (fin x) (fin xmin) = smooth (fin dx) (fin x) (fin xmin) := by
  rw [smooth_eq hdx h1.ne' h2.ne]
  have hcond : lt (fin x) (Arith.exact.r (fin xmin + fin dx)) ∨ ge (fin x) (fin xmin) := .inr (by simp; linarith)
  unfold smoothR
  simp only [if_pos hcond]
  simp only [exact_r]
  rw [sub_fin, sub_fin, div_fin (by linarith), div_fin (by linarith), add_fin]
  show 1 / (F.exp (fin (taperExp dx (x - xmin))) + 1) = _
  have : Real.exp (taperExp dx (x - xmin)) + 1 ≠ 0 := by positivity
  rw [exp_fin, one_def, add_fin, div_fin this]

/-! ### the masses with the taper -/

/-- the exact taper in its window -/
def taperValue (dx y : ℝ) : ℝ := 1 / (Real.exp (taperExp dx y) + 1)

theorem taperValue_bounds (dx y : ℝ) : 0 < taperValue dx y ∧ taperValue dx y ≤ 1 := by
  unfold taperValue
  have := Real.exp_pos (taperExp dx y)
  exact ⟨by positivity, by rw [div_le_one (by linarith)]; linarith⟩

/-- the exact density of the primary mass: tapered power law, and peak -/
def taperedDensity (x α l h mu sig lam δ : ℝ) : ℝ := (1 - lam) * plDensity x α l h * taperValue δ (x - l) + lam * tnDensity x mu sig l h

/-- numbers for which the tapered density is harmless (compare `PeakOK`) -/
structure TaperedOK (κ K x α l h mu sig lam δ : ℝ) : Prop where
  pl : PLRange α l h
  low : l ≤ x
  high : x ≤ h
  sig0 : 2⁻¹ ^ 25 ≤ sig
  sig1 : sig ≤ 2 ^ 25
  mx : Moderate (x - mu)
  ml : Moderate (l - mu)
  mh : Moderate (h - mu)
  lam0 : 0 ≤ lam
  lam1 : lam ≤ 1 - 2⁻¹ ^ 20
  window : TaperPoint κ δ (x - l)
  deep : taperExp δ (x - l) ≤ 79
  first : (2⁻¹:ℝ) ^ 120 ≤ (1 - lam) * plDensity x α l h * taperValue δ (x - l)
  size0 : (2⁻¹:ℝ) ^ 60 ≤ taperedDensity x α l h mu sig lam δ
  size1 : taperedDensity x α l h mu sig lam δ ≤ 2 ^ 60
  tail : 12 * (2⁻¹ ^ 44 / (sig * tnMass mu sig l h)) ≤ κ * taperedDensity x α l h mu sig lam δ
  errPl : plErr (1 + α) (Real.log (h / l)) + 408 + 10 * (δ / (x - l)) ≤ K
  errTn : 781 + 40 / tnMass mu sig l h ≤ K

/-- **C154** (primary mass).  Tapered power law and peak. -/
theorem C154_primary (C : f.Contract κ) {pw : F → F → F} (P : PowContract pw κ) {erf' : F → F} (E : ErfContract erf' κ) {K x α l h mu sig lam δ : ℝ}
    (r : TaperedOK κ K x α l h mu sig lam δ) (hK : κ * (K + 6) ≤ 1) :
    ∃ p, plpeak_primary_taperR f pw erf' (fin x) (fin α) (fin l) (fin h) (fin mu) (fin sig) (fin lam) (fin δ) = fin p ∧ Within (κ * (K + 6)) (taperedDensity x α l h mu sig lam δ) p := by
  have hκ := C.pos
  have l0 : 0 < l := lt_of_lt_of_le (by positivity) r.pl.low
  have h0 : 0 < h := l0.trans_le (r.low.trans r.high)
  have hlh := r.pl.lt h0
  have s0 : 0 < sig := lt_of_lt_of_le (by positivity) r.sig0
  have hP : 0 < tnMass mu sig l h := sub_pos.2 (gcdf_strictMono s0 hlh)
  have y0 : 0 < x - l := lt_of_lt_of_le (by positivity) r.window.low
  have δ0 := r.window.width.pos
  have hq : 0 ≤ κ * (10 * (δ / (x - l))) := by positivity
  have e1 : κ * (plErr (1 + α) (Real.log (h / l)) + 408 + 10 * (δ / (x - l))) ≤ κ * K := mul_le_mul_of_nonneg_left r.errPl hκ.le
  have e2 : κ * (781 + 40 / tnMass mu sig l h) ≤ κ * K := mul_le_mul_of_nonneg_left r.errTn hκ.le
  rw [mul_add, mul_add] at e1
  rw [mul_add] at hK
  have hK0 : 0 ≤ κ * K := le_trans (by positivity) e2
  obtain ⟨a, ea, wa⟩ := C.powerlaw P r.pl r.low r.high (by linarith)
  obtain ⟨b, eb, nb, bb⟩ := C147_truncnorm C E r.sig0 r.sig1 r.mx r.ml r.mh hlh r.low r.high (by linarith)
  obtain ⟨s, es, ws⟩ := C153_taper C r.window r.deep
  have hS := taperValue_bounds δ (x - l)
  obtain ⟨-, g0, g1⟩ := r.pl.density r.low r.high
  have gp : 0 < plDensity x α l h := lt_of_lt_of_le (by positivity) g0
  have hc0 : (2⁻¹:ℝ) ^ 20 ≤ 1 - lam := by linarith [r.lam1]
  have hc1 : 1 - lam ≤ 1 := by linarith [r.lam0]
  obtain ⟨u, eu, wu⟩ := C.rd_rel0 (Rel.refl (x := 1 - lam)) (by norm_num) (.inr (normal3_pos hc0 hc1 (by norm_num) (by norm_num)))
  have hA0 : (2⁻¹:ℝ) ^ 120 ≤ (1 - lam) * plDensity x α l h := le_trans (by norm_num) (mul_le_mul hc0 g0 (by positivity) (by linarith))
  have hA1 : (1 - lam) * plDensity x α l h ≤ 2 ^ 120 := (mul_le_of_le_one_left gp.le hc1).trans (g1.trans (by norm_num))
  have wd := wu.mul (Rel.of_within gp wa)
  obtain ⟨t0, et0, wt0⟩ := C.rd_rel0 wd (by linarith) (.inr (normal3_pos hA0 hA1 (by norm_num) (by norm_num)))
  have hA2 : (1 - lam) * plDensity x α l h * taperValue δ (x - l) ≤ 2 ^ 120 := (mul_le_of_le_one_right (le_trans (by positivity) hA0) hS.2).trans hA1
  have wd' := wt0.mul (Rel.of_within hS.1 ws)
  have e402 : κ * (402 + 10 * (δ / (x - l))) = 402 * κ + κ * (10 * (δ / (x - l))) := by ring
  rw [e402] at wd'
  obtain ⟨t1, et1, wt1⟩ := C.rd_rel0 wd' (by linarith) (.inr (normal3_pos r.first hA2 (by norm_num) (by norm_num)))
  obtain ⟨p, ep, wp⟩ := C.mix_terms (ε := κ * K) r.lam0 (by linarith) hK0 (by linarith) (le_trans (by positivity) r.first) et1 wt1 (tnDensity_nonneg s0 hlh)
    (by positivity) (nb.mono e2 le_rfl (tnDensity_nonneg s0 hlh)) (bb.trans (by unfold flHi; norm_num)) r.size0 (r.size1.trans (by norm_num)) r.tail (by linarith)
  refine ⟨p, ?_, wp.mono (by linarith) (le_trans (by positivity) r.size0)⟩
  unfold plpeak_primary_taperR
  have e11 : (1:F) - fin lam = fin (1 - lam) := sub_fin 1 lam
  rw [ea, eb, es, e11, eu, mul_fin, et0, mul_fin]
  exact ep

/-- **C154** (both masses).  The joint density; the second taper is compared at the secondary mass as computed, `m2`. -/
theorem C154_masses (C : f.Contract κ) {pw : F → F → F} (P : PowContract pw κ) {erf' : F → F} (E : ErfContract erf' κ) {K m1 q α β mmin mmax mu sig lam δ m2 : ℝ}
    (r : TaperedOK κ K m1 α mmin mmax mu sig lam δ) (rq : RatioRange κ β (mmin / m1) q) (hq : ratioErr (1 + β) (Real.log (1 / (mmin / m1))) + 404 + 10 * (δ / (m2 - mmin)) ≤ K) (hK : κ * (2 * K + 8) ≤ 1)
    (e2 : f.r (fin (q * m1)) = fin m2) (w2 : TaperPoint κ δ (m2 - mmin)) (d2 : taperExp δ (m2 - mmin) ≤ 79) (hs1 : Rg 122 (plDensity q β (mmin / m1) 1 * taperValue δ (m2 - mmin)))
    (hs2 : Rg 122 (plDensity q β (mmin / m1) 1 * taperValue δ (m2 - mmin) * taperedDensity m1 α mmin mmax mu sig lam δ)) :
    ∃ p, plpeak_primary_ratio_taperR f pw erf' (fin m1) (fin q) (fin α) (fin β) (fin mmin) (fin mmax) (fin mu) (fin sig) (fin lam) (fin δ) = fin p ∧
      Within (κ * (2 * K + 8)) (plDensity q β (mmin / m1) 1 * taperValue δ (m2 - mmin) * taperedDensity m1 α mmin mmax mu sig lam δ) p := by
  have hκ := C.pos
  have hm : 0 < m1 := (lt_of_lt_of_le (by positivity) r.pl.low).trans_le r.low
  have y0 : 0 < m2 - mmin := lt_of_lt_of_le (by positivity) w2.low
  have δ0 := w2.width.pos
  have hq0 : 0 ≤ κ * (10 * (δ / (m2 - mmin))) := by positivity
  have hK' := mul_le_mul_of_nonneg_left hq hκ.le
  rw [mul_add, mul_add] at hK'
  have hKK : κ * (2 * K + 8) = 2 * (κ * K) + 8 * κ := by ring
  rw [hKK] at hK ⊢
  obtain ⟨a, ea, wa, pa⟩ := C147_ratio C P hm rq (by linarith)
  obtain ⟨s, es, ws⟩ := C153_taper C w2 d2
  have hS := taperValue_bounds δ (m2 - mmin)
  have hT0 : 0 < taperedDensity m1 α mmin mmax mu sig lam δ := lt_of_lt_of_le (by positivity) r.size0
  have e402 : κ * (402 + 10 * (δ / (m2 - mmin))) = 402 * κ + κ * (10 * (δ / (m2 - mmin))) := by ring
  rw [e402] at ws
  obtain ⟨t, et, rt⟩ := C.rel_round ((Rel.of_within pa wa).mul (Rel.of_within hS.1 ws)) (by linarith) hs1.1 hs1.2
  have hK6 : κ * (K + 6) = κ * K + 6 * κ := by ring
  have hKp : 0 ≤ κ * K := le_trans (by
    have h0 : 0 < tnMass mu sig mmin mmax := sub_pos.2 (gcdf_strictMono (lt_of_lt_of_le (by positivity) r.sig0) (r.pl.lt (hm.trans_le r.high)))
    positivity) (mul_le_mul_of_nonneg_left r.errTn hκ.le)
  obtain ⟨b, eb, wb⟩ := C154_primary C P E r (by linarith)
  rw [hK6] at wb
  obtain ⟨p, ep, rp⟩ := C.rel_round (rt.mul (Rel.of_within hT0 wb)) (by linarith) hs2.1 hs2.2
  refine ⟨p, ?_, (rp.within hs2.pos.le).mono (by linarith) hs2.pos.le⟩
  unfold plpeak_primary_ratio_taperR
  rw [mul_fin, e2, ea, es, mul_fin, et, eb, mul_fin, ep]

/-- **C154.** Without rounding these are the densities `plpeak_primary_pdf` and `plpeak_primary_ratio_pdf` with a number `delta`, for masses in the window. -/
theorem C154_exact {x δ mmin q : ℝ} (hδ : 0 < δ) (h1 : mmin < x) (h2 : x < mmin + δ) (h3 : mmin < q * x) (h4 : q * x < mmin + δ) (alpha beta mmax mpp sigpp lam : F) :
    plpeak_primary_taperR Arith.exact F.pow erfF (fin x) alpha (fin mmin) mmax mpp sigpp lam (fin δ) = plpeak_primary_pdf (fin x) alpha (fin mmin) mmax mpp sigpp lam (some (fin δ)) ∧
    plpeak_primary_ratio_taperR Arith.exact F.pow erfF (fin x) (fin q) alpha beta (fin mmin) mmax mpp sigpp lam (fin δ) =
      plpeak_primary_ratio_pdf (fin x) (fin q) alpha beta (fin mmin) mmax mpp sigpp lam (some (fin δ)) := by
  have e1 := C153_exact hδ h1 h2
  have e2 := C153_exact hδ h3 h4
  have a : plpeak_primary_taperR Arith.exact F.pow erfF (fin x) alpha (fin mmin) mmax mpp sigpp lam (fin δ) = plpeak_primary_pdf (fin x) alpha (fin mmin) mmax mpp sigpp lam (some (fin δ)) := by
    unfold plpeak_primary_taperR plpeak_primary_pdf
    simp only [exact_r, e1, C140_exact, C142_exact]
  refine ⟨a, ?_⟩
  unfold plpeak_primary_ratio_taperR plpeak_primary_ratio_pdf
  rw [a]
  simp only [exact_r, mul_fin, e2, C140_exact]

/-- 2.3 rounded to single precision -/
def mmin23 : ℝ := 9646899 / 2 ^ 22

/-- the largest number of single precision below the end of the window of width 5 above `mmin23` -/
def below73 : ℝ := 15309209 / 2 ^ 21

/-- **C153**, failure at the upper end: the lower mass limit 2.3 and a window of width 5.  At the last number of single precision before the end of the window the difference `x - xmin` is rounded to 5, the
exponent is plus instead of minus infinity, and the taper is zero where it should be one. -/
theorem C153_edge_fails : smoothR binary32 (fin 5) (fin below73) (fin mmin23) = fin 0 ∧ mmin23 < below73 ∧ below73 < mmin23 + 5 ∧ 0.99 ≤ 1 / (Real.exp (taperExp 5 (below73 - mmin23)) + 1) := by
  have C := binary32_contract
  have hd : below73 - mmin23 = 5 - 2⁻¹ ^ 22 := by unfold below73 mmin23; norm_num
  have e1 : rd32 (below73 - mmin23) = fin 5 := by
    have hn : near32 (below73 - mmin23) = 5 := by
      rw [hd, near32_eq (e := 2) (k := 10485760) (by norm_num) (by norm_num) (by norm_num) (by norm_num) (by norm_num)]; norm_num
    exact rd32_fin_iff.2 ⟨hn.symm, by rw [hn]; norm_num, by rw [hn]; norm_num⟩
  have e2 : rd32 1 = fin 1 := by have := C.rd_nat 1 (by norm_num); rw [Nat.cast_one] at this; exact this
  refine ⟨?_, ?_, ?_, ?_⟩
  · have hcond : lt (fin below73) (binary32.r (fin mmin23 + fin 5)) ∨ ge (fin below73) (fin mmin23) := .inr (by simp; unfold below73 mmin23; norm_num)
    have r1 : binary32.r (fin below73 - fin mmin23) = fin 5 := by rw [sub_fin]; exact e1
    have r2 : binary32.r (fin 5 / fin 5) = fin 1 := by rw [div_fin (by norm_num), div_self (by norm_num)]; exact e2
    have r3 : binary32.r (fin 5 - fin 5) = fin 0 := by rw [sub_fin, sub_self]; exact C.rd_zero
    have r4 : binary32.r (fin 5 / fin 0) = pinf := by rw [div_fin_zero, infOfSign_pos (by norm_num)]; rfl
    unfold smoothR
    simp only [if_pos hcond, r1, r2, r3, r4]
    rw [fin_add_pinf]
    show binary32.r (1 / binary32.r (binary32.exp pinf + 1)) = fin 0
    rw [C.exp_pinf, one_def, pinf_add_fin]
    show binary32.r (fin 1 / pinf) = fin 0
    rw [fin_div_pinf]
    exact C.rd_zero
  · unfold below73 mmin23; norm_num
  · unfold below73 mmin23; norm_num
  · rw [hd]
    have ht : taperExp 5 (5 - 2⁻¹ ^ 22) ≤ -200 := by unfold taperExp; norm_num
    have h1 : Real.exp (taperExp 5 (5 - 2⁻¹ ^ 22)) ≤ 1 / 200 := by
      have a : (200:ℝ) ≤ Real.exp 200 := by linarith [Real.add_one_le_exp (200:ℝ)]
      calc _ ≤ Real.exp (-200) := Real.exp_le_exp.2 ht
        _ = (Real.exp 200)⁻¹ := Real.exp_neg _
        _ ≤ 1 / 200 := by rw [one_div]; exact inv_anti₀ (by norm_num) a
    have h0 := Real.exp_pos (taperExp 5 (5 - 2⁻¹ ^ 22))
    rw [le_div_iff₀ (by linarith)]
    linarith

/-- a window of width 5 above 3 solar masses: relative error at most `2⁻¹³` from 3.5 to 7.9 solar masses -/
example {x : ℝ} (h1 : 3.5 ≤ x) (h2 : x ≤ 7.9) : ∃ v, smoothR binary32 (fin 5) (fin x) (fin 3) = fin v ∧ Within (2⁻¹ ^ 13) (1 / (Real.exp (taperExp 5 (x - 3)) + 1)) v := by
  norm_num at h1 h2
  have hA : 5 / (x - 3) ≤ 10 := by rw [div_le_iff₀ (by linarith)]; linarith
  have hp : TaperPoint (2⁻¹ ^ 23) 5 (x - 3) := ⟨⟨by norm_num, by norm_num⟩, le_trans (by norm_num) (by linarith : 1 / 2 ≤ x - 3), by norm_num; linarith⟩
  have hE : taperExp 5 (x - 3) ≤ 79 := by
    unfold taperExp
    have : 5 / (x - 3 - 5) ≤ 0 := div_nonpos_of_nonneg_of_nonpos (by norm_num) (by linarith)
    linarith
  obtain ⟨v, ev, wv⟩ := C153_taper binary32_contract hp hE
  exact ⟨v, ev, wv.mono (by norm_num at hA ⊢; linarith) (by positivity)⟩

/-- slope −3 between 5 and 100 solar masses, a window of width 5 -/
theorem tapered_eg {x : ℝ} (h6 : 6 ≤ x) (h9 : x ≤ 9.5) : TaperedOK (2⁻¹ ^ 23) 1400 x (-3) 5 100 35 5 (1 / 8) 5 := by
  norm_num at h9
  have hM := tnMass_ge' (mu := 35) (sig := 5) (low := 5) (high := 100) (by norm_num) (by norm_num) (by norm_num)
  have x0 : 0 < x := by linarith
  have d1 := (plDensity_eg (x := x) (by linarith) (by linarith)).2
  have d0 : 1 / 20 ≤ plDensity x (-3) 5 100 := by
    have e : plDensity x (-3) 5 100 = (x ^ 3)⁻¹ * (20000 / 399) := by
      unfold plDensity
      have e1 : ∀ y : ℝ, 0 < y → y ^ (1 + -3 : ℝ) = (y ^ 2)⁻¹ := fun y hy => by
        rw [show (1 + -3 : ℝ) = -((2:ℕ):ℝ) by norm_num, Real.rpow_neg hy.le, Real.rpow_natCast]
      rw [e1 5 (by norm_num), e1 100 (by norm_num), show (-3:ℝ) = -((3:ℕ):ℝ) by norm_num, Real.rpow_neg x0.le, Real.rpow_natCast]
      norm_num
    have b : x ^ 3 ≤ 1000 := by have := pow_le_pow_left₀ x0.le (by linarith : x ≤ 10) 3; norm_num at this; linarith
    have : (1000:ℝ)⁻¹ ≤ (x ^ 3)⁻¹ := inv_anti₀ (by positivity) b
    rw [e]; linarith
  have t0 : 0 ≤ tnDensity x 35 5 5 100 := tnDensity_nonneg (by norm_num) (by norm_num)
  have t1 : tnDensity x 35 5 5 100 ≤ 1 := by
    refine (tnDensity_le (by norm_num) (by norm_num)).trans ?_
    rw [div_le_iff₀ (by linarith)]; linarith
  have q5 : 5 / (x - 5) ≤ 5 := by rw [div_le_iff₀ (by linarith)]; linarith
  have hE : taperExp 5 (x - 5) ≤ 5 := by
    unfold taperExp
    have : 5 / (x - 5 - 5) ≤ 0 := div_nonpos_of_nonneg_of_nonpos (by norm_num) (by linarith)
    linarith
  obtain ⟨S0, S1⟩ := taperValue_bounds 5 (x - 5)
  have S2 : 1 / 250 ≤ taperValue 5 (x - 5) := by
    unfold taperValue
    have a : Real.exp (taperExp 5 (x - 5)) ≤ 243 := by
      refine (Real.exp_le_exp.2 hE).trans ?_
      rw [show (5:ℝ) = ((5:ℕ):ℝ) * 1 by norm_num, Real.exp_nat_mul]
      exact (pow_le_pow_left₀ (Real.exp_pos 1).le (by linarith [Real.exp_one_lt_d9] : Real.exp 1 ≤ 3) 5).trans (by norm_num)
    exact one_div_le_one_div_of_le (by positivity) (by linarith)
  have hA : 1 / 10000 ≤ (1 - 1 / 8) * plDensity x (-3) 5 100 * taperValue 5 (x - 5) :=
    le_trans (by norm_num) (mul_le_mul (by linarith : (1:ℝ) / 40 ≤ (1 - 1 / 8) * plDensity x (-3) 5 100) S2 (by norm_num) (by linarith))
  have hA1 : (1 - 1 / 8) * plDensity x (-3) 5 100 * taperValue 5 (x - 5) ≤ 1 := mul_le_one₀ (by linarith) S0.le S1
  have T0 : 1 / 10000 ≤ taperedDensity x (-3) 5 100 35 5 (1 / 8) 5 := by unfold taperedDensity; linarith
  have T1 : taperedDensity x (-3) 5 100 35 5 (1 / 8) 5 ≤ 2 := by unfold taperedDensity; linarith
  have hL := log20
  refine ⟨⟨by norm_num, by norm_num, le_trans (by norm_num) hL, by norm_num, by norm_num⟩, by linarith, by linarith, by norm_num, by norm_num, .inr ?_, .inr (by norm_num), .inr (by norm_num), by norm_num, by norm_num,
    ⟨⟨by norm_num, by norm_num⟩, le_trans (by norm_num) (by linarith : 1 ≤ x - 5), by norm_num; linarith⟩, by linarith, le_trans (by norm_num) hA, le_trans (by norm_num) T0, T1.trans (by norm_num), ?_, ?_, ?_⟩
  · rw [abs_of_neg (by linarith)]
    exact ⟨le_trans (by norm_num) (by linarith : 1 ≤ -(x - 35)), (by linarith : -(x - 35) ≤ 30).trans (by norm_num)⟩
  · have : (2⁻¹:ℝ) ^ 44 / (5 * tnMass 35 5 5 100) ≤ 2⁻¹ ^ 44 := by
      rw [div_le_iff₀ (by linarith)]
      exact le_mul_of_one_le_right (by positivity) (by linarith)
    calc (12:ℝ) * (2⁻¹ ^ 44 / (5 * tnMass 35 5 5 100)) ≤ 12 * 2⁻¹ ^ 44 := mul_le_mul_of_nonneg_left this (by norm_num)
      _ ≤ 2⁻¹ ^ 23 * (1 / 10000) := by norm_num
      _ ≤ _ := mul_le_mul_of_nonneg_left T0 (by positivity)
  · unfold plErr
    have e : |1 + (-3:ℝ)| = 2 := by norm_num
    rw [e]
    have : 2 / (2 * Real.log (100 / 5)) ≤ 1 := by rw [div_le_one (by linarith)]; linarith
    nlinarith
  · have : 40 / tnMass 35 5 5 100 ≤ 160 := by rw [div_le_iff₀ (by linarith)]; linarith
    linarith

/-- single precision: a tapered power law of slope −3 from 5 solar masses and a peak at 35; relative error at most `2⁻¹²` from 6 to 9.5 solar masses -/
example {x : ℝ} (h6 : 6 ≤ x) (h9 : x ≤ 9.5) :
    ∃ p, plpeak_primary_taperR binary32 pow32 erf32 (fin x) (fin (-3)) (fin 5) (fin 100) (fin 35) (fin 5) (fin (1 / 8)) (fin 5) = fin p ∧ Within (2⁻¹ ^ 12) (taperedDensity x (-3) 5 100 35 5 (1 / 8) 5) p := by
  obtain ⟨p, ep, wp⟩ := C154_primary binary32_contract pow32_contract erf32_contract (tapered_eg h6 h9) (by norm_num)
  exact ⟨p, ep, wp.mono (by norm_num) (le_trans (by positivity) (tapered_eg h6 h9).size0)⟩

/-- both masses tapered, 9 and 6.75 solar masses: relative error at most `2⁻¹¹` -/
example : ∃ p, plpeak_primary_ratio_taperR binary32 pow32 erf32 (fin 9) (fin (3 / 4)) (fin (-3)) (fin 1) (fin 5) (fin 100) (fin 35) (fin 5) (fin (1 / 8)) (fin 5) = fin p ∧
    Within (2⁻¹ ^ 11) (plDensity (3 / 4) 1 (5 / 9) 1 * taperValue 5 (27 / 4 - 5) * taperedDensity 9 (-3) 5 100 35 5 (1 / 8) 5) p := by
  have r := tapered_eg (x := 9) (by norm_num) (by norm_num)
  have hl : 1 / 2 ≤ Real.log (1 / (5 / 9)) := by
    rw [Real.le_log_iff_exp_le (by norm_num)]
    have h2 : Real.exp (1 / 2) ^ 2 = Real.exp 1 := by rw [← Real.exp_nat_mul]; norm_num
    have := Real.exp_one_lt_d9
    have := Real.exp_pos (1 / 2)
    norm_num
    nlinarith
  have hd : plDensity (3 / 4) 1 (5 / 9) 1 = 243 / 112 := by
    unfold plDensity
    rw [show (1 + 1 : ℝ) = ((2:ℕ):ℝ) by norm_num, Real.rpow_natCast, Real.rpow_natCast, Real.rpow_one]
    norm_num
  have hE : taperExp 5 (27 / 4 - 5) ≤ 2 := by unfold taperExp; norm_num
  obtain ⟨S0, S1⟩ := taperValue_bounds 5 (27 / 4 - 5)
  have S2 : 1 / 10 ≤ taperValue 5 (27 / 4 - 5) := by
    unfold taperValue
    have a : Real.exp (taperExp 5 (27 / 4 - 5)) ≤ 9 := by
      refine (Real.exp_le_exp.2 hE).trans ?_
      rw [show (2:ℝ) = ((2:ℕ):ℝ) * 1 by norm_num, Real.exp_nat_mul]
      exact (pow_le_pow_left₀ (Real.exp_pos 1).le (by linarith [Real.exp_one_lt_d9] : Real.exp 1 ≤ 3) 2).trans (by norm_num)
    exact one_div_le_one_div_of_le (by positivity) (by linarith)
  have e2 : binary32.r (fin (3 / 4 * 9)) = fin (27 / 4) := by
    have hn : near32 (3 / 4 * 9) = 27 / 4 := by
      rw [near32_eq (e := 2) (k := 14155776) (by norm_num) (by norm_num) (by norm_num) (by norm_num) (by norm_num)]; norm_num
    exact rd32_fin_iff.2 ⟨hn.symm, by rw [hn]; norm_num, by rw [hn]; norm_num⟩
  have hs1 : Rg 10 (plDensity (3 / 4) 1 (5 / 9) 1 * taperValue 5 (27 / 4 - 5)) := by
    rw [hd]; constructor
    · norm_num; linarith
    · norm_num; linarith
  have hT : 0 < taperedDensity 9 (-3) 5 100 35 5 (1 / 8) 5 := lt_of_lt_of_le (by positivity) r.size0
  have hs2 : Rg 122 (plDensity (3 / 4) 1 (5 / 9) 1 * taperValue 5 (27 / 4 - 5) * taperedDensity 9 (-3) 5 100 35 5 (1 / 8) 5) :=
    ⟨le_trans (by norm_num) (mul_le_mul hs1.1 r.size0 (by positivity) hs1.pos.le), (mul_le_mul hs1.2 r.size1 hT.le (by positivity)).trans (by norm_num)⟩
  obtain ⟨p, ep, wp⟩ := C154_masses (q := 3 / 4) (β := 1) binary32_contract pow32_contract erf32_contract r
    ⟨by norm_num, le_trans (by norm_num) hl, by norm_num, by norm_num, by norm_num, by norm_num⟩
    (by
      unfold ratioErr plErr
      have e : |1 + (1:ℝ)| = 2 := by norm_num
      rw [e]
      have h1 : 2 / (2 * (Real.log (1 / (5 / 9)) / 2)) ≤ 4 := by rw [div_le_iff₀ (by linarith)]; linarith
      have h2 : 2 / Real.log (1 / (5 / 9)) ≤ 4 := by rw [div_le_iff₀ (by linarith)]; linarith
      have h3 : 5 / ((27:ℝ) / 4 - 5) ≤ 3 := by norm_num
      linarith) (by norm_num) e2
    ⟨⟨by norm_num, by norm_num⟩, by norm_num, by norm_num⟩ (by linarith) ⟨le_trans (by norm_num) hs1.1, hs1.2.trans (by norm_num)⟩ hs2
  exact ⟨p, ep, wp.mono (by norm_num) hs2.pos.le⟩

end GW
end
