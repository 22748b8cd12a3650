import Verif.Props.RoundingParametric
import Verif.Special

/-! # Property C147, continued: spins and redshift in rounded arithmetic -/

open Finset
noncomputable section
open Classical
namespace GW
open F

variable {f : Arith} {κ : ℝ}

/-! ### tilts -/

/-- the exact density of the cosine of the tilt -/
def tiltDensity (ct xi sig : ℝ) : ℝ := (1 - xi) / 2 + xi * tnDensity ct 1 sig (-1) 1

/-- What is asked of the tilt model at one point. -/
structure TiltOK (κ K ct xi sig : ℝ) : Prop where
  low : -1 ≤ ct
  high : ct ≤ 1
  mx : Moderate (ct - 1)
  sig0 : 2⁻¹ ^ 25 ≤ sig
  sig1 : sig ≤ 2 ^ 25
  xi0 : 0 ≤ xi
  xi1 : xi ≤ 1 - 2⁻¹ ^ 20
  size1 : tiltDensity ct xi sig ≤ 2 ^ 60
  tail : 12 * (2⁻¹ ^ 44 / (sig * tnMass 1 sig (-1) 1)) ≤ κ * tiltDensity ct xi sig
  err : 781 + 40 / tnMass 1 sig (-1) 1 ≤ K

theorem TiltOK.ge {K ct xi sig : ℝ} (r : TiltOK κ K ct xi sig) : (2⁻¹:ℝ) ^ 21 ≤ tiltDensity ct xi sig := by
  have s0 : 0 < sig := lt_of_lt_of_le (by positivity) r.sig0
  have := mul_nonneg r.xi0 (tnDensity_nonneg (x := ct) (mu := 1) (low := -1) (high := 1) s0 (by norm_num))
  have h := r.xi1
  unfold tiltDensity
  norm_num at h ⊢; linarith

/-- **C147** (tilt).  The mixture of isotropic and aligned spins. -/
theorem C147_tilt (C : f.Contract κ) {erf' : F → F} (E : ErfContract erf' κ) {K ct xi sig : ℝ} (r : TiltOK κ K ct xi sig) (hK : κ * (K + 6) ≤ 1) :
    ∃ p, mixture_isoalign_spin_tiltR f erf' (fin ct) (fin xi) (fin sig) = fin p ∧ Within (κ * (K + 6)) (tiltDensity ct xi sig) p := by
  have hκ := C.pos
  have s0 : 0 < sig := lt_of_lt_of_le (by positivity) r.sig0
  have hP : 0 < tnMass 1 sig (-1) 1 := sub_pos.2 (gcdf_strictMono s0 (by norm_num))
  have hP40 : 0 < 40 / tnMass 1 sig (-1) 1 := by positivity
  have e2 : κ * (781 + 40 / tnMass 1 sig (-1) 1) ≤ κ * K := mul_le_mul_of_nonneg_left r.err hκ.le
  have e3 : κ * 6 ≤ κ * K := mul_le_mul_of_nonneg_left (by linarith [r.err]) hκ.le
  rw [mul_add] at hK
  have hK0 : 0 ≤ κ * K := le_trans (by positivity) e2
  obtain ⟨b, eb, nb, bb⟩ := C147_truncnorm C E r.sig0 r.sig1 r.mx (low := -1) (high := 1) (.inr (by norm_num)) (.inl (by norm_num)) (by norm_num) r.low r.high (by linarith)
  have hc0 : (2⁻¹:ℝ) ^ 20 ≤ 1 - xi := by linarith [r.xi1]
  have hc1 : 1 - xi ≤ 1 := by linarith [r.xi0]
  have nc : Normal3 (1 - xi) := normal3_pos hc0 hc1 (by norm_num) (by norm_num)
  obtain ⟨u, eu, wu⟩ := C.rd_rel0 (Rel.refl (x := 1 - xi)) (by norm_num) (.inr nc)
  obtain ⟨v, ev, wv⟩ := C.rd_rel0 wu (by linarith) (.inr nc)
  have hA0 : (2⁻¹:ℝ) ^ 21 ≤ (1 - xi) / 2 := by norm_num at hc0 ⊢; linarith
  obtain ⟨t1, et1, wt1⟩ := C.rd_rel0 (wv.div (Rel.refl (x := 2))) (by linarith) (.inr (normal3_pos hA0 (show (1 - xi) / 2 ≤ 1 by linarith) (by norm_num) (by norm_num)))
  have hg := r.ge
  unfold tiltDensity at *
  obtain ⟨p, ep, wp⟩ := C.mix_terms (ε := κ * K) r.xi0 (by linarith) hK0 (by linarith) (le_trans (by positivity) hA0) et1 wt1 (tnDensity_nonneg s0 (by norm_num))
    (by positivity) (nb.mono e2 le_rfl (tnDensity_nonneg s0 (by norm_num))) (bb.trans (by unfold flHi; norm_num)) (le_trans (by norm_num) hg) (r.size1.trans (by norm_num)) r.tail (by linarith)
  refine ⟨p, ?_, wp.mono (by linarith) (le_trans (by positivity) hg)⟩
  unfold mixture_isoalign_spin_tiltR
  have n1 : (-1 : F) = fin (-1) := neg_fin 1
  have e11 : (1:F) - fin xi = fin (1 - xi) := sub_fin 1 xi
  have e12 : (1:F) * fin u = fin u := by rw [show (1:F) * fin u = fin (1 * u) from mul_fin 1 u, one_mul]
  have e13 : fin v / (2:F) = fin (v / 2) := div_fin (show (2:ℝ) ≠ 0 by norm_num)
  have hcut : ¬ (gt (fin ct) 1 ∨ lt (fin ct) (-1)) := by
    rw [n1]
    rintro (h | h)
    · have : 1 < ct := h
      linarith [r.high]
    · have : ct < -1 := h
      linarith [r.low]
  simp only [if_neg hcut, e11, eu, e12, ev, e13]
  rw [n1]
  change f.r (f.r (fin (v / 2)) + f.r (fin xi * truncnorm_pdfR f erf' (fin ct) (fin 1) (fin sig) (fin (-1)) (fin 1))) = _
  rw [eb]
  exact ep

/-- **C147** (tilts).  The product over the two spins. -/
theorem C147_tilts (C : f.Contract κ) {erf' : F → F} (E : ErfContract erf' κ) {K ct1 xi1 sig1 ct2 xi2 sig2 : ℝ} (r1 : TiltOK κ K ct1 xi1 sig1) (r2 : TiltOK κ K ct2 xi2 sig2) (hK : κ * (2 * K + 14) ≤ 1) :
    ∃ p, independent_spin_tiltR f erf' (fin ct1) (fin ct2) (fin xi1) (fin xi2) (fin sig1) (fin sig2) = fin p ∧ Within (κ * (2 * K + 14)) (tiltDensity ct1 xi1 sig1 * tiltDensity ct2 xi2 sig2) p := by
  have hκ := C.pos
  have s0 : 0 < sig1 := lt_of_lt_of_le (by positivity) r1.sig0
  have hP : 0 < tnMass 1 sig1 (-1) 1 := sub_pos.2 (gcdf_strictMono s0 (by norm_num))
  have hP40 : 0 < 40 / tnMass 1 sig1 (-1) 1 := by positivity
  have hK0 : 0 ≤ κ * K := mul_nonneg hκ.le (by linarith [r1.err])
  have hKK : κ * (2 * K + 14) = 2 * (κ * K) + 14 * κ := by ring
  have hK6 : κ * (K + 6) = κ * K + 6 * κ := by ring
  rw [hKK] at hK ⊢
  obtain ⟨a, ea, wa⟩ := C147_tilt C E r1 (by rw [hK6]; linarith)
  obtain ⟨b, eb, wb⟩ := C147_tilt C E r2 (by rw [hK6]; linarith)
  rw [hK6] at wa wb
  have pa : 0 < tiltDensity ct1 xi1 sig1 := lt_of_lt_of_le (by positivity) r1.ge
  have pb : 0 < tiltDensity ct2 xi2 sig2 := lt_of_lt_of_le (by positivity) r2.ge
  have w := (Rel.of_within pa wa).mul (Rel.of_within pb wb)
  obtain ⟨p, ep, rp⟩ := C.rel_round w (by linarith)
    (le_trans (by norm_num) (mul_le_mul r1.ge r2.ge (by positivity) pa.le)) (le_trans (mul_le_mul r1.size1 r2.size1 pb.le (by positivity)) (by norm_num))
  refine ⟨p, ?_, (rp.within (mul_pos pa pb).le).mono (by linarith) (mul_pos pa pb).le⟩
  unfold independent_spin_tiltR
  rw [ea, eb, mul_fin]
  exact ep

/-! ### magnitudes -/

/-- product of two numbers known with absolute errors -/
theorem Arith.Contract.prod_abs (C : f.Contract κ) {u v p q c : ℝ} (hc0 : 0 ≤ c) (hc : c ≤ 4) (hu : |u - p| ≤ κ * (1 + |p|)) (hv : |v - q| ≤ κ * c * (1 + |q|)) (hS : (1 + |p|) * (1 + |q|) ≤ 2 ^ 60) :
    ∃ t, f.r (fin u * fin v) = fin t ∧ |t - p * q| ≤ κ * (c + 3) * ((1 + |p|) * (1 + |q|)) ∧ |p * q| ≤ (1 + |p|) * (1 + |q|) - 1 := by
  have hκ := C.pos
  have hk : 1000 * κ ≤ 1 := by have := C.small; norm_num at this ⊢; linarith
  have hp := abs_nonneg p
  have hq := abs_nonneg q
  have hκc : κ * c ≤ 0.004 := by nlinarith
  have hv' : |v| ≤ 1.004 * (1 + |q|) := by
    have : v = (v - q) + q := by ring
    rw [this]
    refine (abs_add_le _ _).trans ?_
    nlinarith
  have huv : |u * v - p * q| ≤ κ * (c + 1.004) * ((1 + |p|) * (1 + |q|)) := by
    have e : u * v - p * q = (u - p) * v + p * (v - q) := by ring
    rw [e]
    refine (abs_add_le _ _).trans ?_
    rw [abs_mul, abs_mul]
    have h1 : |u - p| * |v| ≤ κ * (1 + |p|) * (1.004 * (1 + |q|)) := mul_le_mul hu hv' (abs_nonneg _) (by positivity)
    have h2 : |p| * |v - q| ≤ (1 + |p|) * (κ * c * (1 + |q|)) := mul_le_mul (by linarith) hv (abs_nonneg _) (by linarith)
    linarith [show κ * (1 + |p|) * (1.004 * (1 + |q|)) + (1 + |p|) * (κ * c * (1 + |q|)) = κ * (c + 1.004) * ((1 + |p|) * (1 + |q|)) by ring]
  have hpq : |p * q| ≤ (1 + |p|) * (1 + |q|) - 1 := by rw [abs_mul]; nlinarith
  generalize (1 + |p|) * (1 + |q|) = S at *
  have hS0 : 1 ≤ S := by linarith [abs_nonneg (p * q)]
  have hκcS : κ * (c + 1.004) * S ≤ 0.006 * S := mul_le_mul_of_nonneg_right (by nlinarith) (by linarith)
  have huv' : |u * v| ≤ 1.006 * S - 1 := by
    have : u * v = (u * v - p * q) + p * q := by ring
    rw [this]
    refine (abs_add_le _ _).trans ?_
    linarith
  obtain ⟨t, et, ht⟩ := C.rd_abs (x := u * v) (huv'.trans (by
    have : (2:ℝ) ^ 61 ≤ flHi := by unfold flHi; norm_num
    have h61 : (2:ℝ) ^ 61 = 2 * 2 ^ 60 := by norm_num
    linarith))
  refine ⟨t, by rw [mul_fin]; exact et, ?_, hpq⟩
  have : t - p * q = (t - u * v) + (u * v - p * q) := by ring
  rw [this]
  refine (abs_add_le _ _).trans ?_
  have h1 : κ * (1 + |u * v|) ≤ κ * (1.006 * S) := mul_le_mul_of_nonneg_left (by linarith) hκ.le
  have h2 : 0 ≤ κ * S := by positivity
  have h3 : 0 ≤ κ * c * S := by positivity
  linarith [show κ * (c + 1.004) * S = κ * c * S + 1.004 * (κ * S) by ring, show κ * (c + 3) * S = κ * c * S + 3 * (κ * S) by ring]

/-- sum of two numbers known with absolute errors -/
theorem Arith.Contract.add_abs (C : f.Contract κ) {u v p q a b A B : ℝ} (hu : |u - p| ≤ a) (hv : |v - q| ≤ b) (hp : |p| ≤ A) (hq : |q| ≤ B) (hab : a + b ≤ 1) (hAB : A + B ≤ 2 ^ 61) :
    ∃ t, f.r (fin u + fin v) = fin t ∧ |t - (p + q)| ≤ a + b + κ * (2 + A + B) := by
  have hκ := C.pos
  have h1 : |u + v - (p + q)| ≤ a + b := by
    have : u + v - (p + q) = (u - p) + (v - q) := by ring
    rw [this]; exact (abs_add_le _ _).trans (add_le_add hu hv)
  have h2 : |u + v| ≤ 1 + (A + B) := by
    have : u + v = (u + v - (p + q)) + (p + q) := by ring
    rw [this]
    refine (abs_add_le _ _).trans (add_le_add (h1.trans hab) ((abs_add_le _ _).trans (add_le_add hp hq)))
  obtain ⟨t, et, ht⟩ := C.rd_abs (x := u + v) (h2.trans (by
    have : (2:ℝ) ^ 62 ≤ flHi := by unfold flHi; norm_num
    have h61 : (2:ℝ) ^ 62 = 2 * 2 ^ 61 := by norm_num
    have : (1:ℝ) ≤ 2 ^ 61 := by norm_num
    linarith))
  refine ⟨t, by rw [add_fin]; exact et, ?_⟩
  have : t - (p + q) = (t - (u + v)) + (u + v - (p + q)) := by ring
  rw [this]
  refine (abs_add_le _ _).trans ?_
  have := mul_le_mul_of_nonneg_left (show 1 + |u + v| ≤ 2 + A + B by linarith) hκ.le
  linarith

/-- size of a term `(a - 1) log x` -/
def betaTerm (a x : ℝ) : ℝ := (1 + |a - 1|) * (1 + |Real.log x|)

/-- the exponent of the Beta density, given the logarithm `B` of the Beta function -/
def betaExponent (x a b B : ℝ) : ℝ := (a - 1) * Real.log x + (b - 1) * Real.log (1 - x) - B

/-- What is asked of the Beta density at one point: the magnitude is strictly between 0 and 1 (both ends at least `2⁻¹⁰⁰` away), the library's logarithm of the Beta function is off by at most `δ`,
and the logarithm of the density is at most 79 in absolute value.  `η` is the resulting error. -/
structure BetaOK (κ δ η : ℝ) (bl : F → F → F) (x a b B : ℝ) : Prop where
  x0 : (2⁻¹:ℝ) ^ 100 ≤ x
  x1 : (2⁻¹:ℝ) ^ 100 ≤ 1 - x
  a0 : |a| ≤ 2 ^ 50
  b0 : |b| ≤ 2 ^ 50
  lib : ∃ y, bl (fin a) (fin b) = fin y ∧ |y - B| ≤ δ
  exponent : |betaExponent x a b B| ≤ 79
  err : κ * (10 * betaTerm a x + 13 * betaTerm (b) (1 - x) + |B| + 1) + δ ≤ η
  err1 : η ≤ 1

/-- **C147** (spin magnitude).  The Beta density with the default scale. -/
theorem C147_beta (C : f.Contract κ) {bl : F → F → F} {δ η x a b B : ℝ} (r : BetaOK κ δ η bl x a b B) :
    ∃ p, betadistR f bl (fin x) (fin a) (fin b) = fin p ∧ Within η (Real.exp (betaExponent x a b B)) p := by
  have hκ := C.pos
  have hk : 1000 * κ ≤ 1 := by have := C.small; norm_num at this ⊢; linarith
  have x0 : 0 < x := lt_of_lt_of_le (by positivity) r.x0
  have x1 : 0 < 1 - x := lt_of_lt_of_le (by positivity) r.x1
  obtain ⟨y, ey, hy⟩ := r.lib
  have hδ : 0 ≤ δ := (abs_nonneg _).trans hy
  have herr := r.err
  have herr1 := r.err1
  have hexp := r.exponent
  have S1 : (1 + |a - 1|) * (1 + |Real.log x|) = betaTerm a x := rfl
  have S2 : (1 + |b - 1|) * (1 + |Real.log (1 - x)|) = betaTerm b (1 - x) := rfl
  have hS1 : 1 ≤ betaTerm a x := by
    unfold betaTerm; nlinarith [abs_nonneg (a - 1), abs_nonneg (Real.log x)]
  have hS2 : 1 ≤ betaTerm b (1 - x) := by
    unfold betaTerm; nlinarith [abs_nonneg (b - 1), abs_nonneg (Real.log (1 - x))]
  have hκS1 : 0 ≤ κ * betaTerm a x := by positivity
  have hκS2 : 0 ≤ κ * betaTerm b (1 - x) := by positivity
  have hκB : 0 ≤ κ * |B| := by positivity
  have hsplit : κ * (10 * betaTerm a x + 13 * betaTerm b (1 - x) + |B| + 1) = 10 * (κ * betaTerm a x) + 13 * (κ * betaTerm b (1 - x)) + κ * |B| + κ := by ring
  rw [hsplit] at herr
  have htiny := C.tiny
  have big : ∀ {S : ℝ}, κ * S ≤ 1 → S ≤ 2 ^ 50 := by
    intro S h
    by_contra hc
    have h1 : (2⁻¹:ℝ) ^ 50 * 2 ^ 50 < κ * S := mul_lt_mul' htiny (not_le.1 hc) (by positivity) hκ
    norm_num at h1
    linarith
  have bS1 : betaTerm a x ≤ 2 ^ 50 := big (by linarith)
  have bS2 : betaTerm b (1 - x) ≤ 2 ^ 50 := big (by linarith)
  have bB : |B| ≤ 2 ^ 50 := big (by linarith)
  have h5060 : (2:ℝ) ^ 50 ≤ 2 ^ 60 := by norm_num
  -- the differences
  have hflo : ∀ n : ℕ, n ≤ 126 → flLo ≤ (2⁻¹:ℝ) ^ n := fun n hn => by unfold flLo; exact pow_le_pow_of_le_one (by norm_num) (by norm_num) hn
  have hfhi : ∀ n : ℕ, n ≤ 127 → (2:ℝ) ^ n ≤ flHi := fun n hn => by unfold flHi; exact pow_le_pow_right₀ (by norm_num) hn
  have h51 : (2:ℝ) ^ 50 + 1 ≤ 2 ^ 51 := by norm_num
  have sub1 : ∀ c : ℝ, |c| ≤ 2 ^ 50 → |c - 1| ≤ flHi := fun c hc => by
    refine (abs_sub c 1).trans ?_
    rw [abs_one]
    linarith [hfhi 51 (by norm_num)]
  obtain ⟨u1, eu1, hu1⟩ := C.rd_abs (x := a - 1) (sub1 a r.a0)
  obtain ⟨u2, eu2, hu2⟩ := C.rd_abs (x := b - 1) (sub1 b r.b0)
  -- the logarithms
  obtain ⟨v1, ev1, hv1⟩ := C.log_norm x ((hflo 100 (by norm_num)).trans r.x0) (le_trans (by linarith) flHi_one)
  obtain ⟨w, ew, ww⟩ := C.rd_rel0 (Rel.refl (x := 1 - x)) (by norm_num) (.inr (normal3_pos r.x1 (show 1 - x ≤ 1 by linarith) (by norm_num) (by norm_num)))
  have nw := ww.normal (by linarith) (normal3_pos r.x1 (show 1 - x ≤ 1 by linarith) (by norm_num) (by norm_num))
  have wp := ww.pos x1
  rw [abs_of_pos wp] at nw
  obtain ⟨v2, ev2, hv2⟩ := C.log_norm w nw.1 nw.2
  have hlw : |Real.log w - Real.log (1 - x)| ≤ 2 * κ := by
    obtain ⟨θ, hθ, e⟩ := ww
    rw [e, Real.log_mul x1.ne' (Real.exp_pos _).ne', Real.log_exp, add_sub_cancel_left]; linarith
  have hv2' : |v2 - Real.log (1 - x)| ≤ κ * 4 * (1 + |Real.log (1 - x)|) := by
    have e : v2 - Real.log (1 - x) = (v2 - Real.log w) + (Real.log w - Real.log (1 - x)) := by ring
    rw [e]
    refine (abs_add_le _ _).trans ?_
    have h1 : |Real.log w| ≤ |Real.log (1 - x)| + 2 * κ := by
      have : Real.log w = (Real.log w - Real.log (1 - x)) + Real.log (1 - x) := by ring
      rw [this]; exact (abs_add_le _ _).trans (by linarith)
    have h2 := mul_le_mul_of_nonneg_left h1 hκ.le
    have h3 : 0 ≤ κ * |Real.log (1 - x)| := by positivity
    have h4 : κ * (2 * κ) ≤ κ := by nlinarith
    linarith [show κ * (1 + |Real.log w|) = κ + κ * |Real.log w| by ring, show κ * (|Real.log (1 - x)| + 2 * κ) = κ * |Real.log (1 - x)| + κ * (2 * κ) by ring,
      show κ * 4 * (1 + |Real.log (1 - x)|) = 4 * κ + 4 * (κ * |Real.log (1 - x)|) by ring]
  -- the products
  obtain ⟨t1, et1, ht1, hp1⟩ := C.prod_abs (c := 1) (by norm_num) (by norm_num) hu1 (by rw [mul_one]; exact hv1) (by rw [S1]; linarith)
  obtain ⟨t2, et2, ht2, hp2⟩ := C.prod_abs (c := 4) (by norm_num) (by norm_num) hu2 hv2' (by rw [S2]; linarith)
  rw [S1] at ht1 hp1
  rw [S2] at ht2 hp2
  have ht1' : |t1 - (a - 1) * Real.log x| ≤ 4 * (κ * betaTerm a x) := ht1.trans (le_of_eq (by ring))
  have ht2' : |t2 - (b - 1) * Real.log (1 - x)| ≤ 7 * (κ * betaTerm b (1 - x)) := ht2.trans (le_of_eq (by ring))
  -- the sums
  have h5161 : (2:ℝ) ^ 50 + 2 ^ 50 + 2 ^ 50 ≤ 2 ^ 61 := by norm_num
  have hpos50 : (0:ℝ) ≤ 2 ^ 50 := by positivity
  obtain ⟨s1, es1, hs1⟩ := C.add_abs ht1' ht2' hp1 hp2 (by linarith) (by linarith)
  have hs1' : |s1 - ((a - 1) * Real.log x + (b - 1) * Real.log (1 - x))| ≤ 5 * (κ * betaTerm a x) + 8 * (κ * betaTerm b (1 - x)) :=
    hs1.trans (le_of_eq (by ring))
  have hpp : |(a - 1) * Real.log x + (b - 1) * Real.log (1 - x)| ≤ betaTerm a x + betaTerm b (1 - x) - 2 :=
    (abs_add_le _ _).trans (by linarith)
  obtain ⟨s2, es2, hs2⟩ := C.add_abs (v := 0) (q := 0) (b := 0) (B := 0) hs1' (by simp) hpp (by simp) (by linarith) (by linarith)
  have hs2' : |s2 - ((a - 1) * Real.log x + (b - 1) * Real.log (1 - x))| ≤ 6 * (κ * betaTerm a x) + 9 * (κ * betaTerm b (1 - x)) := by
    rw [add_zero] at hs2; exact hs2.trans (le_of_eq (by ring))
  obtain ⟨s3, es3, hs3⟩ := C.add_abs (u := s2) (v := -y) (q := -B) (b := δ) (B := |B|) hs2'
    (by rw [← abs_neg]; refine le_trans (le_of_eq (by congr 1; ring)) hy) hpp (by rw [abs_neg]) (by linarith) (by linarith)
  have hE : (a - 1) * Real.log x + (b - 1) * Real.log (1 - x) + -B = betaExponent x a b B := by unfold betaExponent; ring
  rw [hE] at hs3
  have hs3' : |s3 - betaExponent x a b B| ≤ η - κ := by
    refine hs3.trans ?_
    linarith [show κ * (2 + (betaTerm a x + betaTerm b (1 - x) - 2) + |B|) = κ * betaTerm a x + κ * betaTerm b (1 - x) + κ * |B| by ring]
  have h80 : |s3| ≤ 80 := by
    have : s3 = (s3 - betaExponent x a b B) + betaExponent x a b B := by ring
    rw [this]
    exact (abs_add_le _ _).trans (by linarith)
  obtain ⟨p, ep, hp⟩ := C.exp_norm s3 h80
  refine ⟨p, ?_, ((Within.of_abs_log hs3').trans hp).mono (by linarith) (Real.exp_pos _).le⟩
  have hab : |a + b| ≤ 2 ^ 51 := (abs_add_le a b).trans (by linarith [r.a0, r.b0, show (2:ℝ) ^ 50 + 2 ^ 50 = 2 ^ 51 by norm_num])
  obtain ⟨g, eg, hg⟩ := C.rd_abs (x := a + b) (hab.trans (hfhi 51 (by norm_num)))
  obtain ⟨g', eg', -⟩ := C.rd_abs (x := g - 1) (by
    have e : g - 1 = (g - (a + b)) + (a + b) - 1 := by ring
    rw [e]
    refine (abs_sub _ _).trans ?_
    have h1 := abs_add_le (g - (a + b)) (a + b)
    have h2 : κ * (1 + |a + b|) ≤ 1 * (1 + |a + b|) := mul_le_mul_of_nonneg_right (by linarith) (by positivity)
    rw [abs_one]
    have h3 := hfhi 54 (by norm_num)
    have h4 : (2:ℝ) ^ 54 = 8 * 2 ^ 51 := by norm_num
    have h5 : (1:ℝ) ≤ 2 ^ 51 := by norm_num
    linarith)
  unfold betadistR
  have e1 : fin a - (1:F) = fin (a - 1) := sub_fin a 1
  have e2 : fin b - (1:F) = fin (b - 1) := sub_fin b 1
  have e3 : (1:F) - fin x = fin (1 - x) := sub_fin 1 x
  have eu1' : f.r (fin (a - 1)) = fin u1 := eu1
  have eu2' : f.r (fin (b - 1)) = fin u2 := eu2
  have e4 : ∀ c : ℝ, fin c * (0:F) = fin 0 := fun c => by rw [show fin c * (0:F) = fin (c * 0) from mul_fin c 0, mul_zero]
  have e5 : f.r (fin 0) = fin 0 := C.rd_zero
  have hin : le (fin x) 1 ∧ ge (fin x) 0 := by
    constructor
    · show x ≤ 1; linarith
    · show 0 ≤ x; linarith
  have e6 : fin g - (1:F) = fin (g - 1) := sub_fin g 1
  have eg1 : f.r (fin a + fin b) = fin g := by rw [add_fin]; exact eg
  have eg2 : f.r (fin (g - 1)) = fin g' := eg'
  have e7 : f.r (fin s1 - fin 0) = fin s2 := by rw [← es2, sub_fin, add_fin, sub_zero, add_zero]
  have e8 : f.r (fin s2 - fin y) = fin s3 := by rw [← es3, sub_fin, add_fin, sub_eq_add_neg]
  simp only [if_pos hin, e1, e2, e3, eu1', eu2', ev1, ew, ev2, et1, et2, es1, eg1, e6, eg2, e4, e5, e7, ey, e8]
  exact ep

/-- **C147** (spin magnitudes).  The product over the two spins. -/
theorem C147_magnitudes (C : f.Contract κ) {bl : F → F → F} {δ η x1 a1 b1 B1 x2 a2 b2 B2 : ℝ} (r1 : BetaOK κ δ η bl x1 a1 b1 B1) (r2 : BetaOK κ δ η bl x2 a2 b2 B2)
    (hX : |betaExponent x1 a1 b1 B1 + betaExponent x2 a2 b2 B2| ≤ 80) (hη : 2 * η ≤ 1) :
    ∃ p, independent_spin_magnitudeR f bl (fin x1) (fin x2) (fin a1) (fin b1) (fin a2) (fin b2) = fin p ∧
      Within (2 * η + 2 * κ) (Real.exp (betaExponent x1 a1 b1 B1) * Real.exp (betaExponent x2 a2 b2 B2)) p := by
  have hκ := C.pos
  obtain ⟨a, ea, wa⟩ := C147_beta C r1
  obtain ⟨b, eb, wb⟩ := C147_beta C r2
  have w := (Rel.of_within (Real.exp_pos _) wa).mul (Rel.of_within (Real.exp_pos _) wb)
  rw [← Real.exp_add] at w ⊢
  have h80 : Real.exp 80 ≤ 2 ^ 120 := by
    have := Real.exp_one_lt_d9
    have h : Real.exp 80 = Real.exp 1 ^ 80 := by rw [← Real.exp_nat_mul]; norm_num
    rw [h]
    calc Real.exp 1 ^ 80 ≤ 2.72 ^ 80 := pow_le_pow_left₀ (Real.exp_pos _).le (by linarith) _
      _ ≤ 2 ^ 120 := by norm_num
  have hX' := abs_le.1 hX
  obtain ⟨p, ep, rp⟩ := C.rel_round w (by linarith) (by
      have h := Real.exp_le_exp.2 hX'.1
      rw [Real.exp_neg] at h
      refine le_trans ?_ h
      rw [inv_pow]
      exact inv_anti₀ (Real.exp_pos _) (h80.trans (by norm_num))) ((Real.exp_le_exp.2 hX'.2).trans (h80.trans (by norm_num)))
  refine ⟨p, ?_, (rp.within (Real.exp_pos _).le).mono (by linarith) (Real.exp_pos _).le⟩
  unfold independent_spin_magnitudeR
  rw [ea, eb, mul_fin]
  exact ep

/-! ### redshift -/

/-- What is asked of the redshift model at one redshift: redshift between 0 and 15, volume element `V` of moderate size, exponent `s = lamb - 1` zero or between `2⁻²⁰` and 8 in absolute value. -/
structure RedshiftOK (z V s : ℝ) : Prop where
  z0 : 0 ≤ z
  z1 : z ≤ 15
  V0 : (2⁻¹:ℝ) ^ 12 ≤ V
  V1 : V ≤ 2 ^ 12
  s0 : s = 0 ∨ (2⁻¹:ℝ) ^ 20 ≤ |s|
  s1 : |s| ≤ 8

theorem RedshiftOK.size {z V s : ℝ} (r : RedshiftOK z V s) : ((2⁻¹:ℝ) ^ 32 ≤ (1 + z) ^ s ∧ (1 + z) ^ s ≤ 2 ^ 32) ∧ (2⁻¹:ℝ) ^ 44 ≤ V * (1 + z) ^ s ∧ V * (1 + z) ^ s ≤ 2 ^ 44 := by
  have a := rpow_range (a := 4) (b := 32) (x := 1 + z) (le_trans (by norm_num) (show (1:ℝ) ≤ 1 + z by linarith [r.z0])) (le_trans (show 1 + z ≤ 16 by linarith [r.z1]) (by norm_num)) r.s1 (by norm_num)
  have V0 : 0 < V := lt_of_lt_of_le (by positivity) r.V0
  refine ⟨a, ?_, ?_⟩
  · calc (2⁻¹:ℝ) ^ 44 = 2⁻¹ ^ 12 * 2⁻¹ ^ 32 := by norm_num
      _ ≤ _ := mul_le_mul r.V0 a.1 (by positivity) V0.le
  · calc V * (1 + z) ^ s ≤ 2 ^ 12 * 2 ^ 32 := mul_le_mul r.V1 a.2 (le_trans (by positivity) a.1) (by positivity)
      _ = 2 ^ 44 := by norm_num

theorem log_sixteen : Real.log 16 ≤ 2.8 := by
  have h : Real.log 16 = 4 * Real.log 2 := by rw [show (16:ℝ) = 2 ^ 4 by norm_num, Real.log_pow]; norm_num
  rw [h]; linarith [Real.log_two_lt_d9]

/-- **C147** (redshift).  `dVdz (1 + z)^(lamb - 1)` at one redshift. -/
theorem C147_redshift_prob (C : f.Contract κ) {pw : F → F → F} (P : PowContract pw κ) {z V lamb : ℝ} (r : RedshiftOK z V (lamb - 1)) (hε : κ * (5 * |lamb - 1| + 3) ≤ 1) :
    ∃ p, redshiftProbR f pw (fin z) (fin V) (fin lamb) = fin p ∧ Rel (κ * (5 * |lamb - 1| + 3)) (V * (1 + z) ^ (lamb - 1)) p := by
  have hκ := C.pos
  have hk : 1000 * κ ≤ 1 := by have := C.small; norm_num at this ⊢; linarith
  have hz0 := r.z0
  have hz1 := r.z1
  have h1z : 0 < 1 + z := by linarith
  obtain ⟨⟨a0, a1⟩, b0, b1⟩ := r.size
  have hs1 := r.s1
  have V0 : 0 < V := lt_of_lt_of_le (by positivity) r.V0
  have esub : fin lamb - (1:F) = fin (lamb - 1) := sub_fin lamb 1
  have eadd : (1:F) + fin z = fin (1 + z) := add_fin 1 z
  generalize lamb - 1 = s at *
  have hs0 := abs_nonneg s
  -- the base
  obtain ⟨w, ew, ww⟩ := C.rel_round (Rel.refl (x := 1 + z)) (by norm_num) (le_trans (by norm_num) (show (1:ℝ) ≤ 1 + z by linarith)) (le_trans (show 1 + z ≤ 16 by linarith) (by norm_num))
  have w0 := ww.pos h1z
  have hlw : |Real.log w - Real.log (1 + z)| ≤ 2 * κ := by
    obtain ⟨θ, hθ, e⟩ := ww
    rw [e, Real.log_mul h1z.ne' (Real.exp_pos _).ne', Real.log_exp, add_sub_cancel_left]; linarith
  have hlz : |Real.log (1 + z)| ≤ 2.8 := by
    rw [abs_of_nonneg (Real.log_nonneg (by linarith))]
    exact (Real.log_le_log h1z (by linarith)).trans log_sixteen
  have hlw3 : |Real.log w| ≤ 3 := by
    have : Real.log w = (Real.log w - Real.log (1 + z)) + Real.log (1 + z) := by ring
    rw [this]
    exact (abs_add_le _ _).trans (by linarith)
  -- the exponent
  obtain ⟨s', es', hs'⟩ : ∃ s', f.r (fin s) = fin s' ∧ |s' - s| ≤ κ * |s| := by
    rcases r.s0 with h | h
    · exact ⟨0, by rw [h]; exact C.rd_zero, by rw [h]; simp⟩
    · exact C.rd_norm s (le_trans (by unfold flLo; norm_num) h) (hs1.trans (by unfold flHi; norm_num))
  -- the power
  have wp : Rel (κ * (5 * |s|)) ((1 + z) ^ s) (w ^ s') := by
    refine ⟨(s' - s) * Real.log w + s * (Real.log w - Real.log (1 + z)), ?_, ?_⟩
    · refine (abs_add_le _ _).trans ?_
      rw [abs_mul, abs_mul]
      have h1 := mul_le_mul hs' hlw3 (abs_nonneg _) (by positivity)
      have h2 := mul_le_mul_of_nonneg_left hlw hs0
      linarith
    · rw [Real.rpow_def_of_pos w0, Real.rpow_def_of_pos h1z, ← Real.exp_add]; congr 1; ring
  have hκs : 0 ≤ κ * |s| := by positivity
  have e5 : κ * (5 * |s|) = 5 * (κ * |s|) := by ring
  have e53 : κ * (5 * |s| + 3) = 5 * (κ * |s|) + 3 * κ := by ring
  rw [e53] at hε ⊢
  rw [e5] at wp
  have nw : flLo ≤ |w| ∧ |w| ≤ flHi := ww.normal (by linarith) (normal3_pos (a := 1) (b := 16) (by linarith) (by linarith) (by norm_num) (by norm_num))
  have np := wp.normal (by linarith) (normal3_pos a0 a1 (by norm_num) (by norm_num))
  have wsp := Real.rpow_pos_of_pos w0 s'
  rw [abs_of_pos w0] at nw
  rw [abs_of_pos wsp] at np
  obtain ⟨y, ey, wy⟩ := P w s' nw.1 nw.2 np.1 np.2
  obtain ⟨p, ep, rp⟩ := C.rel_round ((Rel.refl (x := V)).mul (wp.trans (Rel.of_within wsp wy))) (by linarith) (le_trans (by norm_num) b0) (b1.trans (by norm_num))
  refine ⟨p, ?_, rp.mono (by linarith)⟩
  unfold redshiftProbR
  rw [eadd, esub, ew, es', ey, mul_fin]
  exact ep

/-- **C147** (redshift).  The normalised redshift density in single precision: `z` and the points `zs` of the stored grid between 0 and 15, steps of the grid between `2⁻¹⁸` and `2¹⁸`, at most 4096 intervals added in any order of depth `D`. -/
theorem C147_redshift (C : f.Contract κ) {pw : F → F → F} (P : PowContract pw κ) {n D : ℕ} (o : RTree n) (hcov : o.Covers) (hdep : o.depth ≤ D) (hn : n ≤ 2 ^ 12)
    {zs : ℕ → ℝ} {V_ : ℕ → ℝ} {zmax z V lamb : ℝ} (hg : ∀ j ≤ n, RedshiftOK (zs j) (V_ j) (lamb - 1)) (hs : ∀ j < n, (2⁻¹:ℝ) ^ 18 ≤ zs (j + 1) - zs j ∧ zs (j + 1) - zs j ≤ 2 ^ 18)
    (r : RedshiftOK z V (lamb - 1)) (hz : z ≤ zmax) (hε : κ * (10 * |lamb - 1| + 16 + 2 * D) ≤ 1) :
    ∃ p, redshiftCallR f pw o zs (fun j => fin (V_ j)) zmax (fin z) (fin V) (fin lamb) = fin p ∧
      Within (κ * (10 * |lamb - 1| + 16 + 2 * D)) (V * (1 + z) ^ (lamb - 1) / trapz (n + 1) (fun j => V_ j * (1 + zs j) ^ (lamb - 1)) zs) p := by
  have hκ := C.pos
  have hD0 : 0 ≤ κ * (D:ℝ) := by positivity
  have hls : 0 ≤ κ * |lamb - 1| := by positivity
  have e1 : κ * (10 * |lamb - 1| + 16 + 2 * D) = 10 * (κ * |lamb - 1|) + 16 * κ + 2 * (κ * D) := by ring
  have e2 : κ * (5 * |lamb - 1| + 3) = 5 * (κ * |lamb - 1|) + 3 * κ := by ring
  have e3 : (8 + 2 * (D:ℝ)) * κ = 8 * κ + 2 * (κ * D) := by ring
  rw [e1] at hε ⊢
  obtain ⟨a, ea, wa⟩ := C147_redshift_prob C P r (by rw [e2]; linarith)
  obtain ⟨T, eT, rT, t0, t1⟩ := C.trapz_rel o hcov hdep hn (ε := κ * (5 * |lamb - 1| + 3)) (by rw [e2]; positivity)
    (y := fun j => redshiftProbR f pw (fin (zs j)) (fin (V_ j)) (fin lamb)) (Y := fun j => V_ j * (1 + zs j) ^ (lamb - 1)) (grid := zs)
    (fun j hj => C147_redshift_prob C P (hg j hj) (by rw [e2]; linarith)) (fun j hj => (hg j hj).size.2) hs (by rw [e2, e3]; linarith)
  rw [e2] at wa
  rw [e2, e3] at rT
  obtain ⟨-, b0, b1⟩ := r.size
  have tp : 0 < trapz (n + 1) (fun j => V_ j * (1 + zs j) ^ (lamb - 1)) zs := lt_of_lt_of_le (by positivity) t0
  have ap : 0 < V * (1 + z) ^ (lamb - 1) := lt_of_lt_of_le (by positivity) b0
  have Tp := rT.pos tp
  obtain ⟨p, ep, rp⟩ := C.rel_round (wa.div rT) (by linarith) (by
      rw [le_div_iff₀ tp]
      exact le_trans (mul_le_mul_of_nonneg_left t1 (by positivity)) (le_trans (by norm_num) b0)) (by
      rw [div_le_iff₀ tp]
      exact b1.trans (le_trans (by norm_num) (mul_le_mul_of_nonneg_left t0 (by positivity))))
  refine ⟨p, ?_, (rp.within (div_pos ap tp).le).mono (by linarith) (div_pos ap tp).le⟩
  unfold redshiftCallR redshiftNormR
  rw [if_pos (show le (fin z) (fin zmax) from hz), ea, eT, div_fin Tp.ne']
  exact ep

/-- **C147** (redshift).  Beyond the largest redshift the density is exactly zero. -/
theorem C147_redshift_outside {pw : F → F → F} {n : ℕ} (o : RTree n) {zs : ℕ → ℝ} {V_ : ℕ → F} {zmax z : ℝ} {V lamb : F} (hz : zmax < z) :
    redshiftCallR f pw o zs V_ zmax (fin z) V lamb = 0 := by
  unfold redshiftCallR
  rw [if_neg (show ¬ le (fin z) (fin zmax) from not_le.2 hz)]

end GW
end
