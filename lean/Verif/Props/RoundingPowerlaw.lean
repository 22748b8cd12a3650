import Verif.Model.RoundingPowerlaw
import Verif.Props.RoundingBasics

/-! # C140: the power-law density in rounded arithmetic -/

noncomputable section
open Classical
namespace GW
open F

/-- What is used of the library's power: relative error `κ` where base and result are in the normal range. -/
def PowContract (pw : F → F → F) (κ : ℝ) : Prop :=
  ∀ x y : ℝ, flLo ≤ x → x ≤ flHi → flLo ≤ x ^ y → x ^ y ≤ flHi → ∃ z, pw (fin x) (fin y) = fin z ∧ Within κ (x ^ y) z

/-- well inside the normal range of single precision -/
def Normal3 (y : ℝ) : Prop := 3 * flLo ≤ |y| ∧ 3 * |y| ≤ flHi

/-- `y` is `x` times a factor between `exp (-ε)` and `exp ε` -/
def Rel (ε x y : ℝ) : Prop := ∃ θ, |θ| ≤ ε ∧ y = x * Real.exp θ

theorem Rel.mono {ε δ x y : ℝ} (h : Rel ε x y) (hd : ε ≤ δ) : Rel δ x y := by
  obtain ⟨θ, h1, h2⟩ := h; exact ⟨θ, h1.trans hd, h2⟩

theorem Rel.trans {ε δ x y z : ℝ} (h : Rel ε x y) (h' : Rel δ y z) : Rel (ε + δ) x z := by
  obtain ⟨θ, h1, rfl⟩ := h
  obtain ⟨φ, h2, rfl⟩ := h'
  exact ⟨θ + φ, (abs_add_le _ _).trans (add_le_add h1 h2), by rw [Real.exp_add]; ring⟩

theorem Rel.mul {ε δ x y u v : ℝ} (h : Rel ε x y) (h' : Rel δ u v) : Rel (ε + δ) (x * u) (y * v) := by
  obtain ⟨θ, h1, rfl⟩ := h
  obtain ⟨φ, h2, rfl⟩ := h'
  exact ⟨θ + φ, (abs_add_le _ _).trans (add_le_add h1 h2), by rw [Real.exp_add]; ring⟩

theorem Rel.div {ε δ x y u v : ℝ} (h : Rel ε x y) (h' : Rel δ u v) : Rel (ε + δ) (x / u) (y / v) := by
  obtain ⟨θ, h1, rfl⟩ := h
  obtain ⟨φ, h2, rfl⟩ := h'
  refine ⟨θ - φ, (abs_sub _ _).trans (add_le_add h1 h2), ?_⟩
  rw [Real.exp_sub]
  have := (Real.exp_pos φ).ne'
  rw [mul_div_mul_comm]

theorem Rel.refl {x : ℝ} : Rel 0 x x := ⟨0, by simp, by simp⟩

theorem rel_of_abs {κ x y : ℝ} (hκ0 : 0 ≤ κ) (hκ : κ ≤ 1 / 2) (h : |y - x| ≤ κ * |x|) : Rel (2 * κ) x y := by
  by_cases hx : x = 0
  · subst hx
    simp only [sub_zero, abs_zero, mul_zero, abs_nonpos_iff] at h
    exact ⟨0, by simpa using hκ0, by simp [h]⟩
  have h1 : |y / x - 1| ≤ κ * |(1:ℝ)| := by
    have e : y / x - 1 = (y - x) / x := by field_simp
    rw [e, abs_div, div_le_iff₀ (abs_pos.2 hx), abs_one, mul_one]; exact h
  have w := within_of_rel hκ0 hκ zero_le_one h1
  have hp : 0 < y / x := lt_of_lt_of_le (by simpa using Real.exp_pos (-(2 * κ))) w.1
  refine ⟨Real.log (y / x), ?_, ?_⟩
  · rw [abs_le]
    constructor
    · rw [Real.le_log_iff_exp_le hp]; simpa using w.1
    · rw [Real.log_le_iff_le_exp hp]; simpa using w.2
  · rw [Real.exp_log hp]; field_simp

theorem Rel.of_within {ε x y : ℝ} (hx : 0 < x) (w : Within ε x y) : Rel ε x y := by
  have hp : 0 < y / x := div_pos (lt_of_lt_of_le (mul_pos (Real.exp_pos _) hx) w.1) hx
  refine ⟨Real.log (y / x), ?_, ?_⟩
  · rw [abs_le]
    constructor
    · rw [Real.le_log_iff_exp_le hp, le_div_iff₀ hx]; exact w.1
    · rw [Real.log_le_iff_le_exp hp, div_le_iff₀ hx]; exact w.2
  · rw [Real.exp_log hp]; field_simp

theorem Rel.within {ε x y : ℝ} (hx : 0 ≤ x) (h : Rel ε x y) : Within ε x y := by
  obtain ⟨θ, h1, rfl⟩ := h
  rw [abs_le] at h1
  constructor
  · rw [mul_comm]; exact mul_le_mul_of_nonneg_left (Real.exp_le_exp.2 h1.1) hx
  · rw [mul_comm (Real.exp ε)]; exact mul_le_mul_of_nonneg_left (Real.exp_le_exp.2 h1.2) hx

theorem Rel.abs {ε x y : ℝ} (h : Rel ε x y) : Within ε |x| |y| := by
  obtain ⟨θ, h1, rfl⟩ := h
  exact Rel.within (abs_nonneg _) ⟨θ, h1, by rw [abs_mul, abs_of_pos (Real.exp_pos θ)]⟩

theorem Rel.normal {ε x y : ℝ} (h : Rel ε x y) (hε : ε ≤ 1) (hx : Normal3 x) : flLo ≤ |y| ∧ |y| ≤ flHi := by
  have a := h.abs.le_three hε (abs_nonneg _)
  have b := h.abs.third_le hε (abs_nonneg _)
  exact ⟨by linarith [hx.1], by linarith [hx.2]⟩

/-- absolute error of a factor -/
theorem Rel.err {ε x y : ℝ} (h : Rel ε x y) (hε : ε ≤ 1) : |y - x| ≤ 2 * ε * |x| := by
  obtain ⟨θ, h1, rfl⟩ := h
  have e : x * Real.exp θ - x = x * (Real.exp θ - 1) := by ring
  rw [e, abs_mul, mul_comm]
  exact mul_le_mul_of_nonneg_right ((Real.abs_exp_sub_one_le (h1.trans hε)).trans (by linarith)) (abs_nonneg _)

variable {f : Arith} {κ : ℝ}

theorem Arith.Contract.rd_rel (C : f.Contract κ) {x : ℝ} (h : flLo ≤ |x| ∧ |x| ≤ flHi) : ∃ y, f.r (fin x) = fin y ∧ Rel (2 * κ) x y := by
  obtain ⟨y, hy, e⟩ := C.rd_norm x h.1 h.2
  exact ⟨y, hy, rel_of_abs C.pos.le C.le_half e⟩

/-- the exponent of a power is rounded -/
theorem rpow_rel {x s s' L : ℝ} (hx : 0 < x) (hL : |Real.log x| ≤ L) (hκ : 0 ≤ κ) (hs : |s' - s| ≤ κ * |s|) : Rel (κ * |s| * L) (x ^ s) (x ^ s') := by
  refine ⟨(s' - s) * Real.log x, ?_, ?_⟩
  · rw [abs_mul]
    exact mul_le_mul hs hL (abs_nonneg _) (by positivity)
  · rw [Real.rpow_def_of_pos hx, Real.rpow_def_of_pos hx, ← Real.exp_add]; congr 1; ring

theorem cancellation_aux {a b t : ℝ} (hb : 0 < b) (ht : 0 < t) (hab : a = b * Real.exp t) : a + b ≤ (1 + 2 / t) * |a - b| := by
  have he : 1 + t ≤ Real.exp t := by have := Real.add_one_le_exp t; linarith
  have hd : a - b = b * (Real.exp t - 1) := by rw [hab]; ring
  have hpos : 0 < a - b := by rw [hd]; exact mul_pos hb (by linarith)
  rw [abs_of_pos hpos, add_mul, one_mul]
  have : 2 * b ≤ 2 / t * (a - b) := by
    rw [hd, div_mul_eq_mul_div, le_div_iff₀ ht]
    nlinarith
  linarith

/-- how much the difference of the two powers loses: `h^s + l^s ≤ (1 + 2 / (|s| ln (h/l))) |h^s - l^s|` -/
theorem cancellation {l h s : ℝ} (hl : 0 < l) (hlh : l < h) (hs : s ≠ 0) :
    h ^ s + l ^ s ≤ (1 + 2 / (|s| * Real.log (h / l))) * |h ^ s - l ^ s| := by
  have hh := hl.trans hlh
  have hlog : 0 < Real.log (h / l) := Real.log_pos ((one_lt_div hl).2 hlh)
  have e : h ^ s = l ^ s * Real.exp (s * Real.log (h / l)) := by
    rw [Real.rpow_def_of_pos hh, Real.rpow_def_of_pos hl, ← Real.exp_add, Real.log_div hh.ne' hl.ne']; congr 1; ring
  rcases lt_or_gt_of_ne hs with h0 | h0
  · rw [add_comm, abs_sub_comm, abs_of_neg h0]
    refine cancellation_aux (Real.rpow_pos_of_pos hh s) (mul_pos (by linarith) hlog) ?_
    rw [e, mul_assoc, ← Real.exp_add]
    have : s * Real.log (h / l) + -s * Real.log (h / l) = 0 := by ring
    rw [this]; simp
  · rw [abs_of_pos h0]
    exact cancellation_aux (Real.rpow_pos_of_pos hl s) (mul_pos h0 hlog) e

/-- **C140.** `powerlaw_pdf` in rounded arithmetic, slope not −1: if the powers, their difference, the quotient and the density are in the range of single precision, the returned number is the exact density
up to a factor whose logarithm is at most `9 κ + 4 κ (1 + |1+α| L) (1 + 2 / (|1+α| ln (high/low)))`, `L` bounding `|ln low|` and `|ln high|`: the closer the slope is to −1, the larger the error. -/
theorem C140_error {pw : F → F → F} (C : f.Contract κ) (P : PowContract pw κ) {x α l h L : ℝ} (hl : flLo ≤ l) (hlh : l < h) (hh : h ≤ flHi) (hlx : l ≤ x) (hxh : x ≤ h)
    (hα : 1 + α ≠ 0) (hLl : |Real.log l| ≤ L) (hLh : |Real.log h| ≤ L)
    (r1 : Normal3 (x ^ α)) (r2 : Normal3 (1 + α)) (r3 : Normal3 (l ^ (1 + α))) (r4 : Normal3 (h ^ (1 + α))) (r5 : Normal3 (h ^ (1 + α) - l ^ (1 + α)))
    (r6 : Normal3 ((1 + α) / (h ^ (1 + α) - l ^ (1 + α)))) (r7 : Normal3 (x ^ α * ((1 + α) / (h ^ (1 + α) - l ^ (1 + α)))))
    (hε : 9 * κ + 4 * κ * (1 + |1 + α| * L) * (1 + 2 / (|1 + α| * Real.log (h / l))) ≤ 1) :
    ∃ p, powerlaw_pdfR f pw (fin x) (fin α) (fin l) (fin h) = fin p ∧
      Within (9 * κ + 4 * κ * (1 + |1 + α| * L) * (1 + 2 / (|1 + α| * Real.log (h / l)))) (x ^ α * ((1 + α) / (h ^ (1 + α) - l ^ (1 + α)))) p := by
  have hκ := C.pos
  have l0 : 0 < l := flLo_pos.trans_le hl
  have h0 : 0 < h := l0.trans hlh
  have x0 : 0 < x := l0.trans_le hlx
  have hlog : 0 < Real.log (h / l) := Real.log_pos ((one_lt_div l0).2 hlh)
  have hL0 : 0 ≤ L := (abs_nonneg _).trans hLl
  have hsa : 0 < |1 + α| := abs_pos.2 hα
  generalize hs : 1 + α = s at *
  set K := 1 + 2 / (|s| * Real.log (h / l)) with hK
  have hK1 : 1 ≤ K := by rw [hK]; have : 0 ≤ 2 / (|s| * Real.log (h / l)) := by positivity
                         linarith
  set η := κ * (1 + |s| * L) with hη
  have hη0 : 0 ≤ η := by positivity
  have hεη : 9 * κ + 4 * κ * (1 + |s| * L) * K = 9 * κ + 4 * η * K := by rw [hη]; ring
  rw [hεη] at hε ⊢
  have hηK : η ≤ η * K := le_mul_of_one_le_right hη0 hK1
  have hη1 : κ * |s| * L ≤ η := by rw [hη]; nlinarith
  have hηK0 : 0 ≤ η * K := hη0.trans hηK
  -- the numerator of the norm
  have rs : flLo ≤ |s| ∧ |s| ≤ flHi := (Rel.refl (x := s)).normal (by norm_num) r2
  obtain ⟨s', es', ers⟩ := C.rd_norm s rs.1 rs.2
  have es : f.r (1 + fin α) = fin s' := by
    have : (1 : F) + fin α = fin s := by rw [← hs]; exact add_fin 1 α
    rw [this]; exact es'
  have rels : Rel (2 * κ) s s' := rel_of_abs hκ.le C.le_half ers
  -- a power
  have hpow : ∀ {v : ℝ}, l ≤ v → v ≤ h → |Real.log v| ≤ L → Normal3 (v ^ s) → ∃ z, pw (fin v) (fin s') = fin z ∧ Rel η (v ^ s) z := by
    intro v hv1 hv2 hv3 hv4
    have v0 : 0 < v := l0.trans_le hv1
    have q := rpow_rel (κ := κ) v0 hv3 hκ.le ers
    have n := q.normal (by linarith) hv4
    have vp := Real.rpow_pos_of_pos v0 s'
    rw [abs_of_pos vp] at n
    obtain ⟨z, ez, wz⟩ := P v s' (hl.trans hv1) (hv2.trans hh) n.1 n.2
    exact ⟨z, ez, (q.trans (Rel.of_within vp wz)).mono (le_of_eq (by rw [hη]; ring))⟩
  obtain ⟨A, eA, wA⟩ := hpow hlh.le le_rfl hLh r4
  obtain ⟨B, eB, wB⟩ := hpow le_rfl hlh.le hLl r3
  -- the difference
  have hd : |A - B - (h ^ s - l ^ s)| ≤ 2 * η * K * |h ^ s - l ^ s| := by
    have a := wA.err (by linarith)
    have b := wB.err (by linarith)
    rw [abs_of_pos (Real.rpow_pos_of_pos h0 s)] at a
    rw [abs_of_pos (Real.rpow_pos_of_pos l0 s)] at b
    have c := cancellation l0 hlh hα
    rw [← hK] at c
    have e : A - B - (h ^ s - l ^ s) = (A - h ^ s) - (B - l ^ s) := by ring
    rw [e]
    refine (abs_sub _ _).trans ((add_le_add a b).trans ?_)
    rw [← mul_add, mul_assoc (2 * η)]
    exact mul_le_mul_of_nonneg_left c (by linarith)
  have wd : Rel (4 * η * K) (h ^ s - l ^ s) (A - B) :=
    (rel_of_abs (κ := 2 * η * K) (by linarith [hηK0]) (by linarith) hd).mono (by linarith)
  obtain ⟨d, ed, wd'⟩ := C.rd_rel (wd.normal (by linarith) r5)
  have relD := wd.trans wd'
  have d0 : d ≠ 0 := by
    have n := relD.normal (by linarith) r5
    intro e; rw [e, abs_zero] at n; linarith [n.1, flLo_pos]
  -- the norm
  have relq := rels.div relD
  obtain ⟨q, eq, wq⟩ := C.rd_rel (relq.normal (by linarith) r6)
  have relQ := relq.trans wq
  -- the density
  have xp := Real.rpow_pos_of_pos x0 α
  have nx := (Rel.refl (x := x ^ α)).normal (by norm_num) r1
  rw [abs_of_pos xp] at nx
  obtain ⟨g, eg, wg⟩ := P x α (hl.trans hlx) (hxh.trans hh) nx.1 nx.2
  have relp := (Rel.of_within xp wg).mul relQ
  obtain ⟨p, ep, wp⟩ := C.rd_rel (relp.normal (by linarith) r7)
  refine ⟨p, ?_, ?_⟩
  · have hne : ¬ feq (fin α) (-1) := by
      have : (-1 : F) = fin (-1) := rfl
      rw [this, feq_fin]; intro e; rw [e] at hs; norm_num at hs; exact hα hs.symm
    unfold powerlaw_pdfR
    simp only [es, eA, eB, sub_fin, ed, div_fin d0, eq, eg, mul_fin, if_neg hne, ep, lt_fin, gt_fin]
    rw [if_neg (by rintro (h | h) <;> linarith)]
  · refine Rel.within ?_ ((relp.trans wp).mono (by linarith))
    refine mul_nonneg xp.le ?_
    rcases lt_or_gt_of_ne hα with g0 | g0
    · exact div_nonneg_of_nonpos g0.le (sub_nonpos.2 (Real.rpow_le_rpow_of_nonpos l0 hlh.le g0.le))
    · exact div_nonneg g0.le (sub_nonneg.2 (Real.rpow_le_rpow l0.le hlh.le g0.le))

/-- slope exactly −1: the other branch is accurate, whatever the range. -/
theorem C140_error_log {pw : F → F → F} (C : f.Contract κ) (P : PowContract pw κ) {x l h : ℝ} (hl : flLo ≤ l) (hlh : l < h) (hh : h ≤ flHi) (hlx : l ≤ x) (hxh : x ≤ h)
    (r1 : Normal3 (x ^ (-1 : ℝ))) (r2 : Normal3 (h / l)) (r3 : Normal3 (1 / Real.log (h / l))) (r4 : Normal3 (x ^ (-1 : ℝ) * (1 / Real.log (h / l))))
    (hε : 5 * κ + 2 * κ * (1 + 4 / Real.log (h / l)) ≤ 1) :
    ∃ p, powerlaw_pdfR f pw (fin x) (fin (-1)) (fin l) (fin h) = fin p ∧
      Within (5 * κ + 2 * κ * (1 + 4 / Real.log (h / l))) (x ^ (-1 : ℝ) * (1 / Real.log (h / l))) p := by
  have hκ := C.pos
  have l0 : 0 < l := flLo_pos.trans_le hl
  have h0 : 0 < h := l0.trans hlh
  have x0 : 0 < x := l0.trans_le hlx
  have hr : 0 < h / l := div_pos h0 l0
  have hlog : 0 < Real.log (h / l) := Real.log_pos ((one_lt_div l0).2 hlh)
  obtain ⟨q, eq, wq⟩ := C.rd_rel ((Rel.refl (x := h / l)).normal (by norm_num) r2)
  have nq := wq.normal (by have := C.small; norm_num at this ⊢; linarith) r2
  obtain ⟨θ, hθ, rfl⟩ := wq
  have q0 : 0 < h / l * Real.exp θ := mul_pos hr (Real.exp_pos _)
  rw [abs_of_pos q0] at nq
  obtain ⟨m, em, hm⟩ := C.log_norm _ nq.1 nq.2
  have elog : Real.log (h / l * Real.exp θ) = Real.log (h / l) + θ := by rw [Real.log_mul hr.ne' (Real.exp_pos _).ne', Real.log_exp]
  rw [elog] at hm
  generalize Real.log (h / l) = t at *
  have hks : 2 * κ ≤ 1 := by have := C.small; norm_num at this ⊢; linarith
  have hm2 : |m - t| ≤ κ * (1 + 4 / t) * |t| := by
    have e1 : |t + θ| ≤ t + 2 * κ := (abs_add_le _ _).trans (by rw [abs_of_pos hlog]; linarith)
    have e2 : |m - t| ≤ |m - (t + θ)| + |θ| := by
      have : m - t = (m - (t + θ)) + θ := by ring
      rw [this]; exact abs_add_le _ _
    rw [abs_of_pos hlog]
    have e3 : κ * (1 + 4 / t) * t = κ * t + 4 * κ := by field_simp
    rw [e3]
    have e4 : κ * (1 + |t + θ|) ≤ κ * (1 + (t + 1)) := mul_le_mul_of_nonneg_left (by linarith) hκ.le
    have e5 : κ * (1 + (t + 1)) = κ * t + 2 * κ := by ring
    linarith
  have hk4 : 0 ≤ κ * (1 + 4 / t) := by positivity
  have relm := rel_of_abs hk4 (by linarith) hm2
  have m0 : m ≠ 0 := by
    obtain ⟨φ, -, rfl⟩ := relm
    exact mul_ne_zero hlog.ne' (Real.exp_pos _).ne'
  have relq := (Rel.refl (x := 1)).div relm
  obtain ⟨n, en, wn⟩ := C.rd_rel (relq.normal (by linarith) r3)
  have xp := Real.rpow_pos_of_pos x0 (-1)
  have nx := (Rel.refl (x := x ^ (-1 : ℝ))).normal (by norm_num) r1
  rw [abs_of_pos xp] at nx
  obtain ⟨g, eg, wg⟩ := P x (-1) (hl.trans hlx) (hxh.trans hh) nx.1 nx.2
  have relp := (Rel.of_within xp wg).mul (relq.trans wn)
  obtain ⟨p, ep, wp⟩ := C.rd_rel (relp.normal (by linarith) r4)
  refine ⟨p, ?_, ?_⟩
  · have he : feq (fin (-1)) (-1) := by
      have : (-1 : F) = fin (-1) := rfl
      rw [this, feq_fin]
    have e1 : (1 : F) / fin m = fin (1 / m) := div_fin m0
    unfold powerlaw_pdfR
    simp only [div_fin l0.ne', eq, em, e1, en, eg, mul_fin, if_pos he, ep, lt_fin, gt_fin]
    rw [if_neg (by rintro (h | h) <;> linarith)]
  · exact Rel.within (by positivity) ((relp.trans wp).mono (by linarith))

/-- without rounding this is `powerlaw_pdf` -/
theorem C140_exact (xx alpha low high floor : F) : powerlaw_pdfR Arith.exact F.pow xx alpha low high floor = powerlaw_pdf xx alpha low high floor := by
  have e : ∀ a : F, Arith.exact.r a = a := fun a => by cases a <;> rfl
  simp only [powerlaw_pdfR, powerlaw_pdf, e]; rfl

/-! ### single precision -/

/-- the correctly rounded power of single precision -/
def pow32 (a b : F) : F := match F.pow a b with | fin x => rd32 x | v => v

theorem pow32_pos {x : ℝ} (hx : 0 < x) (y : ℝ) : pow32 (fin x) (fin y) = rd32 (x ^ y) := by simp [pow32, F.pow_fin_pos hx]

theorem pow32_contract : PowContract pow32 (2⁻¹ ^ 23) := by
  intro x y h0 _ h2 h3
  have hx : 0 < x := flLo_pos.trans_le h0
  have hp := Real.rpow_pos_of_pos hx y
  have ha : |x ^ y| = x ^ y := abs_of_pos hp
  obtain ⟨z, hz, e⟩ := rd32_norm (x := x ^ y) (by rwa [ha]) (by rwa [ha])
  refine ⟨z, by rw [pow32_pos hx, hz], ?_⟩
  exact (within_of_rel (κ := 2⁻¹ ^ 24) (by positivity) (by norm_num) hp.le e).mono (by norm_num) hp.le

/-- single precision between 1 and 2 is a grid of spacing `2⁻²³` -/
theorem rd32_one_two {x : ℝ} (h1 : 1 ≤ x) (h2 : x < 2) {n : ℕ} (hn : |x - (1 + n * 2⁻¹ ^ 23)| < 2⁻¹ ^ 24) : rd32 x = fin (1 + n * 2⁻¹ ^ 23) := by
  have hx : 0 < x := by linarith
  have hlog : Int.log 2 |x| = 0 := by
    rw [abs_of_pos hx]
    refine le_antisymm ?_ ?_
    · have : Int.log 2 x < 1 := by
        rw [← Int.lt_zpow_iff_log_lt (by norm_num) hx]; norm_num; exact h2
      omega
    · rw [← Int.zpow_le_iff_le_log (by norm_num) hx]; norm_num; exact h1
  have hu : ulp32 x = 2⁻¹ ^ 23 := by unfold ulp32; rw [hlog]; norm_num
  have hr : round (x / ulp32 x) = 2 ^ 23 + n := by
    rw [hu, round_eq, Int.floor_eq_iff]
    rw [abs_lt] at hn
    push_cast
    norm_num at hn ⊢
    constructor <;> linarith [hn.1, hn.2]
  have hv : (round (x / ulp32 x) : ℝ) * ulp32 x = 1 + n * 2⁻¹ ^ 23 := by
    rw [hr, hu]; push_cast; norm_num; ring
  have hb : |(1 + n * 2⁻¹ ^ 23 : ℝ)| < 2 ^ 128 := by
    rw [abs_of_pos (by positivity)]
    rw [abs_lt] at hn
    norm_num at hn ⊢; linarith [hn.1]
  rw [rd32_eq (by rw [hv]; exact hb), hv]

theorem exp_two_sided {t : ℝ} (h0 : 0 ≤ t) (h1 : t ≤ 2⁻¹ ^ 20) : 1 + t ≤ Real.exp t ∧ Real.exp t ≤ 1 + t + 2⁻¹ ^ 40 := by
  have a := Real.add_one_le_exp t
  have b := Real.abs_exp_sub_one_sub_id_le (x := t) (by rw [abs_of_nonneg h0]; exact h1.trans (by norm_num))
  rw [abs_le] at b
  have c : t ^ 2 ≤ 2⁻¹ ^ 40 := by
    have := pow_le_pow_left₀ h0 h1 2
    exact this.trans (by norm_num)
  exact ⟨by linarith, by linarith [b.2]⟩

/-- the smallest slope above −1 that single precision can represent -/
def nearMinusOne : ℝ := -1 + 2⁻¹ ^ 24

theorem nearMinusOne_rd : binary32.r (1 + fin nearMinusOne) = fin (2⁻¹ ^ 24) := by
  have e : (1 : F) + fin nearMinusOne = fin (2⁻¹ ^ 24) := by
    have : (1 : F) + fin nearMinusOne = fin (1 + nearMinusOne) := add_fin 1 _
    rw [this]; unfold nearMinusOne; congr 1; ring
  rw [e]
  show rd32 _ = _
  refine rd32_int (2 ^ 23) ?_ (by norm_num)
  have hl : Int.log 2 |(2⁻¹ : ℝ) ^ 24| = -24 := by
    rw [abs_of_pos (by positivity)]
    have : (2⁻¹ : ℝ) ^ 24 = ((2 : ℕ) : ℝ) ^ (-24 : ℤ) := by norm_num
    rw [this, Int.log_zpow (by norm_num)]
  unfold ulp32; rw [hl]; norm_num

theorem pow32_near {v : ℝ} (hv : 1 ≤ v) {n : ℕ} (h1 : 2 * n - 1 < Real.log v) (h2 : Real.log v + 2⁻¹ ^ 16 < 2 * n + 1) (h3 : Real.log v ≤ 16) :
    pow32 (fin v) (fin (2⁻¹ ^ 24)) = fin (1 + n * 2⁻¹ ^ 23) := by
  have v0 : 0 < v := by linarith
  have hl := Real.log_nonneg hv
  rw [pow32_pos v0, Real.rpow_def_of_pos v0]
  obtain ⟨a, b⟩ := exp_two_sided (t := Real.log v * 2⁻¹ ^ 24) (by positivity) (by norm_num at h3 ⊢; linarith)
  refine rd32_one_two (by norm_num at a b h1 h2 h3 hl ⊢; linarith) (by norm_num at a b h1 h2 h3 ⊢; linarith) ?_
  rw [abs_lt]
  norm_num at a b h1 h2 h3 ⊢
  constructor <;> linarith

/-- The exact density is at most this close to slope −1 -/
theorem density_near_le {x α l h : ℝ} (hl : 1 ≤ l) (hlh : l < h) (hx : 0 < x) (hα : 0 < 1 + α) :
    0 < h ^ (1 + α) - l ^ (1 + α) ∧ x ^ α * ((1 + α) / (h ^ (1 + α) - l ^ (1 + α))) ≤ x ^ α / Real.log (h / l) := by
  have l0 : 0 < l := by linarith
  have h0 : 0 < h := l0.trans hlh
  have hlog : 0 < Real.log (h / l) := Real.log_pos ((one_lt_div l0).2 hlh)
  generalize 1 + α = s at *
  have e : h ^ s = l ^ s * Real.exp (s * Real.log (h / l)) := by
    rw [Real.rpow_def_of_pos h0, Real.rpow_def_of_pos l0, ← Real.exp_add, Real.log_div h0.ne' l0.ne']; congr 1; ring
  have h1 : 1 ≤ l ^ s := Real.one_le_rpow hl hα.le
  have h2 := Real.add_one_le_exp (s * Real.log (h / l))
  have h3 : s * Real.log (h / l) ≤ h ^ s - l ^ s := by
    rw [e]; have : 0 < s * Real.log (h / l) := mul_pos hα hlog
    nlinarith
  have hd : 0 < h ^ s - l ^ s := (mul_pos hα hlog).trans_le h3
  refine ⟨hd, ?_⟩
  rw [div_eq_mul_inv (x ^ α)]
  refine mul_le_mul_of_nonneg_left ?_ (Real.rpow_pos_of_pos hx α).le
  rw [div_le_iff₀ hd, inv_mul_eq_div, le_div_iff₀ hlog]
  exact h3

/-- **C140, where it fails.** Single precision, correctly rounded throughout, slope `-1 + 2⁻²⁴`, `low = 1`, any `high ≤ 3/2`: the two powers round to the same number and the returned density is `+inf` at every
point, where the exact density is at most `1 / ln high`. -/
theorem C140_infinite_fails {x h : ℝ} (hh : 1 < h) (hh2 : h ≤ 3 / 2) (hx : 1 ≤ x) (hxh : x ≤ h) :
    powerlaw_pdfR binary32 pow32 (fin x) (fin nearMinusOne) (fin 1) (fin h) = pinf ∧
      x ^ nearMinusOne * ((1 + nearMinusOne) / (h ^ (1 + nearMinusOne) - 1 ^ (1 + nearMinusOne))) ≤ 1 / Real.log h := by
  have x0 : 0 < x := by linarith
  have hs : 1 + nearMinusOne = 2⁻¹ ^ 24 := by unfold nearMinusOne; ring
  have hα : nearMinusOne ≤ 0 := by unfold nearMinusOne; norm_num
  have hx1 : x ^ nearMinusOne ≤ 1 := Real.rpow_le_one_of_one_le_of_nonpos hx hα
  constructor
  · have e1 : pow32 (fin h) (fin (2⁻¹ ^ 24)) = fin 1 := by
      have hl : Real.log h ≤ 1 / 2 := (Real.log_le_sub_one_of_pos (by linarith)).trans (by linarith)
      have := pow32_near (v := h) hh.le (n := 0) (by have := Real.log_pos hh; push_cast; linarith) (by norm_num; linarith) (by linarith)
      simpa using this
    have e2 : pow32 (fin 1) (fin (2⁻¹ ^ 24)) = fin 1 := by
      have := pow32_near (v := 1) le_rfl (n := 0) (by simp) (by norm_num) (by simp)
      simpa using this
    have hlow : 1 / 2 ≤ x ^ nearMinusOne := by
      have h1 : x ^ (-1 : ℝ) ≤ x ^ nearMinusOne := Real.rpow_le_rpow_of_exponent_le hx (by unfold nearMinusOne; norm_num)
      refine le_trans ?_ h1
      rw [Real.rpow_neg_one, one_div]
      exact inv_anti₀ x0 (by linarith)
    obtain ⟨z, ez, wz⟩ := rd32_norm (x := x ^ nearMinusOne) (by rw [abs_of_pos (by linarith)]; exact le_trans (by unfold flLo; norm_num) hlow)
      (by rw [abs_of_pos (by linarith)]; exact hx1.trans flHi_one)
    have z0 : 0 < z := by
      rw [abs_le, abs_of_pos (by linarith)] at wz
      norm_num at wz; linarith [wz.1]
    have hne : ¬ feq (fin nearMinusOne) (-1) := by
      have : (-1 : F) = fin (-1) := rfl
      rw [this, feq_fin]; unfold nearMinusOne; norm_num
    have hr0 : binary32.r (fin 1 - fin 1) = fin 0 := by simp only [sub_fin, sub_self]; exact rd32_zero
    have hq : binary32.r (fin (2⁻¹ ^ 24) / fin 0) = pinf := by
      rw [div_fin_zero, infOfSign_pos (by positivity)]; rfl
    unfold powerlaw_pdfR
    simp only [nearMinusOne_rd, e1, e2, hr0, hq, if_neg hne, pow32_pos x0, ez, fin_mul_pinf, infOfSign_pos z0, lt_fin, gt_fin]
    rw [if_neg (by rintro (h | h) <;> linarith)]
    rfl
  · have := (density_near_le (x := x) (α := nearMinusOne) le_rfl hh x0 (by rw [hs]; positivity)).2
    rw [div_one] at this
    refine this.trans (div_le_div_of_nonneg_right hx1 (Real.log_nonneg hh.le))

/-- **C140, where it fails: a realistic mass range.** Single precision, correctly rounded throughout, slope `-1 + 2⁻²⁴` on `[5, 100]`: the norm is 1/2 instead of about 1/3, so that the returned density
is at least 1.4 times the exact one at every mass. -/
theorem C140_norm_fails {x : ℝ} (hx : 5 ≤ x) (hxh : x ≤ 100) :
    ∃ p, powerlaw_pdfR binary32 pow32 (fin x) (fin nearMinusOne) (fin 5) (fin 100) = fin p ∧
      1.4 * (x ^ nearMinusOne * ((1 + nearMinusOne) / (100 ^ (1 + nearMinusOne) - 5 ^ (1 + nearMinusOne)))) ≤ p := by
  have x0 : 0 < x := by linarith
  have hs : 1 + nearMinusOne = 2⁻¹ ^ 24 := by unfold nearMinusOne; ring
  have hα : nearMinusOne ≤ 0 := by unfold nearMinusOne; norm_num
  have hx1 : x ^ nearMinusOne ≤ 1 := Real.rpow_le_one_of_one_le_of_nonpos (by linarith) hα
  have ee := Real.exp_one_lt_d9
  have ee' := Real.exp_one_gt_d9
  have e1 : pow32 (fin 100) (fin (2⁻¹ ^ 24)) = fin (1 + 2 * 2⁻¹ ^ 23) := by
    have a : 3 < Real.log 100 := by
      rw [Real.lt_log_iff_exp_lt (by norm_num)]
      have : Real.exp 3 = Real.exp 1 ^ 3 := by rw [← Real.exp_nat_mul]; norm_num
      rw [this]
      refine (pow_le_pow_left₀ (Real.exp_pos _).le ee.le 3).trans_lt (by norm_num)
    have b : Real.log 100 < 4.9 := by
      rw [Real.log_lt_iff_lt_exp (by norm_num)]
      have : Real.exp 4.9 = Real.exp 1 ^ 5 * Real.exp (-0.1) := by rw [← Real.exp_nat_mul, ← Real.exp_add]; norm_num
      rw [this]
      have h1 := Real.add_one_le_exp (-0.1 : ℝ)
      have h2 : (2.7182818283 : ℝ) ^ 5 ≤ Real.exp 1 ^ 5 := pow_le_pow_left₀ (by norm_num) ee'.le 5
      have h3 : (0.9 : ℝ) ≤ Real.exp (-0.1) := by linarith
      have := mul_le_mul h2 h3 (by norm_num) (by positivity)
      refine lt_of_lt_of_le ?_ this
      norm_num
    have := pow32_near (v := 100) (by norm_num) (n := 2) (by push_cast; linarith) (by norm_num at b ⊢; linarith) (by norm_num at b ⊢; linarith)
    simpa using this
  have e2 : pow32 (fin 5) (fin (2⁻¹ ^ 24)) = fin (1 + 2⁻¹ ^ 23) := by
    have a : 1 < Real.log 5 := by
      rw [Real.lt_log_iff_exp_lt (by norm_num)]; linarith
    have b : Real.log 5 < 2 := by
      rw [Real.log_lt_iff_lt_exp (by norm_num)]
      have : Real.exp 2 = Real.exp 1 ^ 2 := by rw [← Real.exp_nat_mul]; norm_num
      rw [this]
      refine lt_of_lt_of_le (by norm_num) (pow_le_pow_left₀ (by norm_num) ee'.le 2)
    have := pow32_near (v := 5) (by norm_num) (n := 1) (by push_cast; linarith) (by norm_num at b ⊢; linarith) (by linarith)
    simpa using this
  have hd : binary32.r (fin (1 + 2 * 2⁻¹ ^ 23) - fin (1 + 2⁻¹ ^ 23)) = fin (2⁻¹ ^ 23) := by
    rw [sub_fin]
    have : (1 + 2 * 2⁻¹ ^ 23 : ℝ) - (1 + 2⁻¹ ^ 23) = 2⁻¹ ^ 23 := by ring
    rw [this]
    show rd32 _ = _
    refine rd32_int (2 ^ 23) ?_ (by norm_num)
    have hl : Int.log 2 |(2⁻¹ : ℝ) ^ 23| = -23 := by
      rw [abs_of_pos (by positivity)]
      have : (2⁻¹ : ℝ) ^ 23 = ((2 : ℕ) : ℝ) ^ (-23 : ℤ) := by norm_num
      rw [this, Int.log_zpow (by norm_num)]
    unfold ulp32; rw [hl]; norm_num
  have hq : binary32.r (fin (2⁻¹ ^ 24) / fin (2⁻¹ ^ 23)) = fin (1 / 2) := by
    rw [div_fin (by positivity)]
    have : (2⁻¹ : ℝ) ^ 24 / 2⁻¹ ^ 23 = 1 / 2 := by norm_num
    rw [this]
    show rd32 _ = _
    refine rd32_int (2 ^ 23) ?_ (by norm_num)
    have hl : Int.log 2 |(1 / 2 : ℝ)| = -1 := by
      rw [abs_of_pos (by positivity)]
      have : (1 / 2 : ℝ) = ((2 : ℕ) : ℝ) ^ (-1 : ℤ) := by norm_num
      rw [this, Int.log_zpow (by norm_num)]
    unfold ulp32; rw [hl]; norm_num
  have hlow : 1 / 100 ≤ x ^ nearMinusOne := by
    have h1 : x ^ (-1 : ℝ) ≤ x ^ nearMinusOne := Real.rpow_le_rpow_of_exponent_le (by linarith) (by unfold nearMinusOne; norm_num)
    refine le_trans ?_ h1
    rw [Real.rpow_neg_one, one_div]
    exact inv_anti₀ x0 hxh
  obtain ⟨z, ez, wz⟩ := rd32_norm (x := x ^ nearMinusOne) (by rw [abs_of_pos (by linarith)]; exact le_trans (by unfold flLo; norm_num) hlow)
    (by rw [abs_of_pos (by linarith)]; exact hx1.trans flHi_one)
  rw [abs_le, abs_of_pos (by linarith : 0 < x ^ nearMinusOne)] at wz
  have z0 : 0 < z := by norm_num at wz; linarith [wz.1]
  obtain ⟨p, ep, wp⟩ := rd32_norm (x := z * (1 / 2)) (by rw [abs_of_pos (by positivity)]; unfold flLo; norm_num at wz ⊢; linarith [wz.1])
    (by rw [abs_of_pos (by positivity)]; unfold flHi; norm_num at wz ⊢; linarith [wz.2])
  rw [abs_le, abs_of_pos (by positivity : 0 < z * (1 / 2))] at wp
  have hne : ¬ feq (fin nearMinusOne) (-1) := by
    have : (-1 : F) = fin (-1) := rfl
    rw [this, feq_fin]; unfold nearMinusOne; norm_num
  refine ⟨p, ?_, ?_⟩
  · unfold powerlaw_pdfR
    simp only [nearMinusOne_rd, e1, e2, hd, hq, if_neg hne, pow32_pos x0, ez, mul_fin, lt_fin, gt_fin]
    rw [if_neg (by rintro (h | h) <;> linarith)]
    exact ep
  · have := (density_near_le (x := x) (α := nearMinusOne) (l := 5) (h := 100) (by norm_num) (by norm_num) x0 (by rw [hs]; positivity)).2
    have h20 : 2.9 ≤ Real.log (100 / 5) := by
      rw [Real.le_log_iff_exp_le (by norm_num)]
      have : Real.exp 2.9 = Real.exp 1 ^ 3 * (Real.exp 0.1)⁻¹ := by rw [← Real.exp_nat_mul, ← Real.exp_neg, ← Real.exp_add]; norm_num
      rw [this]
      have h1 := Real.add_one_le_exp (0.1 : ℝ)
      have h2 : Real.exp 1 ^ 3 ≤ (2.7182818286 : ℝ) ^ 3 := pow_le_pow_left₀ (Real.exp_pos _).le ee.le 3
      have h3 : (Real.exp 0.1)⁻¹ ≤ (1.1 : ℝ)⁻¹ := inv_anti₀ (by norm_num) (by linarith)
      refine (mul_le_mul h2 h3 (by positivity) (by positivity)).trans (by norm_num)
    have h3 : x ^ nearMinusOne / Real.log (100 / 5) ≤ x ^ nearMinusOne / 2.9 := div_le_div_of_nonneg_left (by linarith) (by norm_num) h20
    have h4 : x ^ nearMinusOne / 2.9 = x ^ nearMinusOne * (10 / 29) := by norm_num; ring
    rw [h4] at h3
    norm_num at wz wp ⊢
    norm_num at this h3
    linarith [wz.1, wp.1]

example : powerlaw_pdfR binary32 pow32 (fin 1.25) (fin nearMinusOne) (fin 1) (fin 1.5) = pinf :=
  (C140_infinite_fails (by norm_num) (by norm_num) (by norm_num) (by norm_num)).1

/-- the hypotheses of `C140_error` at slope 1 on `[5, 100]` in single precision: relative error below `2⁻¹⁵` -/
example : ∃ p, powerlaw_pdfR binary32 pow32 (fin 10) (fin 1) (fin 5) (fin 100) = fin p ∧ Within (2⁻¹ ^ 15) (10 * (2 / (100 ^ 2 - 5 ^ 2))) p := by
  have ee := Real.exp_one_lt_d9
  have ee' := Real.exp_one_gt_d9
  have b : Real.log 100 ≤ 5 := by
    rw [Real.log_le_iff_le_exp (by norm_num)]
    have : Real.exp 5 = Real.exp 1 ^ 5 := by rw [← Real.exp_nat_mul]; norm_num
    rw [this]
    exact le_trans (by norm_num) (pow_le_pow_left₀ (by norm_num) ee'.le 5)
  have h20 : 2 ≤ Real.log (100 / 5) := by
    rw [Real.le_log_iff_exp_le (by norm_num)]
    have : Real.exp 2 = Real.exp 1 ^ 2 := by rw [← Real.exp_nat_mul]; norm_num
    rw [this]
    exact (pow_le_pow_left₀ (Real.exp_pos _).le ee.le 2).trans (by norm_num)
  have e2 : (1 : ℝ) + 1 = ((2 : ℕ) : ℝ) := by norm_num
  have hb : 9 * (2⁻¹ : ℝ) ^ 23 + 4 * 2⁻¹ ^ 23 * (1 + |(1 : ℝ) + 1| * 5) * (1 + 2 / (|(1 : ℝ) + 1| * Real.log (100 / 5))) ≤ 2⁻¹ ^ 15 := by
    have h2 : |(1 : ℝ) + 1| = 2 := by norm_num
    rw [h2]
    have : 2 / (2 * Real.log (100 / 5)) ≤ 2 / (2 * 2) := div_le_div_of_nonneg_left (by norm_num) (by norm_num) (by linarith)
    norm_num at this ⊢
    linarith
  obtain ⟨p, h1, h2⟩ := C140_error (x := 10) (α := 1) (l := 5) (h := 100) (L := 5) binary32_contract pow32_contract (by unfold flLo; norm_num) (by norm_num) (by unfold flHi; norm_num)
    (by norm_num) (by norm_num) (by norm_num)
    (by rw [abs_of_pos (Real.log_pos (by norm_num))]; exact (Real.log_le_log (by norm_num) (by norm_num)).trans b) (by rw [abs_of_pos (Real.log_pos (by norm_num))]; exact b)
    (by unfold Normal3 flLo flHi; norm_num) (by unfold Normal3 flLo flHi; norm_num)
    (by rw [e2, Real.rpow_natCast]; unfold Normal3 flLo flHi; norm_num) (by rw [e2, Real.rpow_natCast]; unfold Normal3 flLo flHi; norm_num)
    (by rw [e2, Real.rpow_natCast, Real.rpow_natCast]; unfold Normal3 flLo flHi; norm_num [abs_of_pos])
    (by rw [e2, Real.rpow_natCast, Real.rpow_natCast]; unfold Normal3 flLo flHi; norm_num [abs_of_pos])
    (by rw [e2, Real.rpow_natCast, Real.rpow_natCast]; unfold Normal3 flLo flHi; norm_num [abs_of_pos])
    (hb.trans (by norm_num))
  refine ⟨p, h1, ?_⟩
  rw [e2, Real.rpow_natCast, Real.rpow_natCast, Real.rpow_one] at h2
  push_cast at h2
  refine h2.mono ?_ (by norm_num)
  rw [show (1 : ℝ) + 1 = 2 by norm_num] at hb; exact hb

end GW
end
