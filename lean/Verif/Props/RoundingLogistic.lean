import Verif.Model.RoundingLogistic
import Verif.Props.RoundingRange
import Verif.Props.Falloff
import Verif.Props.RoundingParametric

/-! # Property C152: the soft truncation in single precision -/

open Finset
noncomputable section
open Classical
namespace GW
open F

variable {f : Arith} {κ : ℝ}

/-- zero, or of a size between `2⁻ᵐ` and `2ᵐ` -/
def Fine (m : ℕ) (a : ℝ) : Prop := a = 0 ∨ Rg m |a|

theorem Fine.neg {m : ℕ} {a : ℝ} (h : Fine m a) : Fine m (-a) := h.imp (fun h => by rw [h, neg_zero]) fun h => by rwa [abs_neg]

theorem Fine.mul {m n : ℕ} {a b : ℝ} (ha : Fine m a) (hb : Fine n b) : Fine (m + n) (a * b) := by
  rcases ha with rfl | ha
  · exact .inl (zero_mul b)
  rcases hb with rfl | hb
  · exact .inl (mul_zero a)
  refine .inr ⟨?_, ?_⟩
  · rw [abs_mul, pow_add]; exact mul_le_mul ha.1 hb.1 (by positivity) (abs_nonneg a)
  · rw [abs_mul, pow_add]; exact mul_le_mul ha.2 hb.2 (abs_nonneg b) (by positivity)

theorem Fine.sign {s : ℝ} (h : s = 1 ∨ s = -1) : Fine 0 s := by
  rcases h with rfl | rfl <;> exact .inr (by simp [Rg])

theorem Rel.neg {ε x y : ℝ} (h : Rel ε x y) : Rel ε (-x) (-y) := by
  obtain ⟨θ, h1, rfl⟩ := h; exact ⟨θ, h1, by ring⟩

theorem Arith.Contract.fine_round (C : f.Contract κ) {m : ℕ} {ε x y : ℝ} (h : Rel ε x y) (hε : ε ≤ 1) (hm : m ≤ 124) (hx : Fine m x) : ∃ z, f.r (fin y) = fin z ∧ Rel (ε + 2 * κ) x z := by
  rcases hx with rfl | hx
  · obtain ⟨θ, h1, rfl⟩ := h
    refine ⟨0, by rw [zero_mul]; exact C.rd_zero, 0, ?_, by simp⟩
    rw [abs_zero]; linarith [C.pos, abs_nonneg θ]
  · obtain ⟨z, ez, rz⟩ := C.rd_rel (h.normal hε ⟨(hx.range hm).1, (hx.range hm).2⟩)
    exact ⟨z, ez, h.trans rz⟩

/-- the arguments of the logistic functions: `sgn` is `1` or `-1`, difference and scale are zero or in a wide range -/
structure SoftArgs (x x0 sgn sc : ℝ) : Prop where
  sign : sgn = 1 ∨ sgn = -1
  diff : Fine 40 (x - x0)
  scale : Fine 40 sc

theorem SoftArgs.flip {x x0 sgn sc : ℝ} (h : SoftArgs x x0 sgn sc) : SoftArgs x x0 (-sgn) sc :=
  ⟨h.sign.symm.imp (fun h => by rw [h]; norm_num) fun h => by rw [h], h.diff, h.scale⟩

theorem SoftArgs.fine {x x0 sgn sc : ℝ} (h : SoftArgs x x0 sgn sc) : Fine 80 (sgn * sc * (x - x0)) := by
  simpa using ((Fine.sign h.sign).mul h.scale).mul h.diff

theorem SoftArgs.le {x x0 sgn sc : ℝ} (h : SoftArgs x x0 sgn sc) : |sgn * sc * (x - x0)| ≤ 2 ^ 80 := by
  rcases h.fine with h | h
  · rw [h, abs_zero]; positivity
  · exact h.2

theorem Arith.Contract.soft_arg (C : f.Contract κ) {x x0 sgn sc : ℝ} (h : SoftArgs x x0 sgn sc) :
    ∃ u, f.r (-(f.r (f.r (-1 * fin sgn) * fin sc)) * f.r (fin x - fin x0)) = fin u ∧ Rel (8 * κ) (sgn * sc * (x - x0)) u := by
  have hκ := C.pos
  have hs := C.small
  norm_num at hs
  have fs := (Fine.sign h.sign).neg
  obtain ⟨d, ed, rd⟩ := C.fine_round (Rel.refl (x := x - x0)) (by norm_num) (by norm_num) h.diff
  obtain ⟨a, ea, ra⟩ := C.fine_round (Rel.refl (x := -sgn)) (by norm_num) (by norm_num) fs
  obtain ⟨k, ek, rk⟩ := C.fine_round (ra.mul (Rel.refl (x := sc))) (by linarith) (by norm_num) (fs.mul h.scale)
  obtain ⟨u, eu, ru⟩ := C.fine_round (rk.neg.mul rd) (by linarith) (by norm_num) ((fs.mul h.scale).neg.mul h.diff)
  refine ⟨u, ?_, ?_⟩
  · rw [sub_fin, ed, one_def, neg_fin, mul_fin, show (-1:ℝ) * sgn = -sgn by ring, ea, mul_fin, ek, neg_fin, mul_fin, eu]
  · rw [show sgn * sc * (x - x0) = -(-sgn * sc) * (x - x0) by ring]
    exact ru.mono (by linarith)

theorem exp_diff_le {a b M : ℝ} (ha : a ≤ M) (hb : b ≤ M) : |Real.exp a - Real.exp b| ≤ |a - b| * Real.exp M := by
  have key : ∀ {a b : ℝ}, a ≤ b → b ≤ M → Real.exp b - Real.exp a ≤ (b - a) * Real.exp M := by
    intro a b h hb
    have h1 := Real.add_one_le_exp (a - b)
    have h2 : Real.exp a = Real.exp b * Real.exp (a - b) := by rw [← Real.exp_add]; congr 1; ring
    have h3 : Real.exp b - Real.exp a ≤ (b - a) * Real.exp b := by rw [h2]; nlinarith [Real.exp_pos b]
    exact h3.trans (mul_le_mul_of_nonneg_left (Real.exp_le_exp.2 hb) (by linarith))
  rcases le_total a b with h | h
  · rw [abs_sub_comm, abs_of_nonneg (by linarith [Real.exp_le_exp.2 h]), abs_sub_comm a b, abs_of_nonneg (by linarith : 0 ≤ b - a)]
    exact key h hb
  · rw [abs_of_nonneg (by linarith [Real.exp_le_exp.2 h]), abs_of_nonneg (by linarith : 0 ≤ a - b)]
    exact key h ha

/-- the exponential of a number below zero known up to a factor has a small absolute error however large the number -/
theorem Arith.Contract.exp_neg (C : f.Contract κ) {T u : ℝ} (hT : T ≤ 0) (h : Rel (8 * κ) T u) : ∃ e, f.exp (fin u) = fin e ∧ |e - Real.exp T| ≤ 18 * κ := by
  have hκ := C.pos
  have hs := C.small
  norm_num at hs
  have he := h.err (by linarith)
  rw [abs_of_nonpos hT] at he
  have h1 : |Real.exp u - Real.exp T| ≤ 16 * κ := by
    have b := abs_le.1 he
    have hu : u ≤ T / 2 := by nlinarith [b.2]
    refine (exp_diff_le hu (by linarith)).trans ?_
    have q := Real.quadratic_le_exp_of_nonneg (show 0 ≤ -(T / 2) by linarith)
    have q2 : -T ≤ Real.exp (-(T / 2)) := by nlinarith [sq_nonneg (T / 2 + 1)]
    have q3 : -T * Real.exp (T / 2) ≤ 1 := by
      have := mul_le_mul_of_nonneg_right q2 (Real.exp_pos (T / 2)).le
      rwa [← Real.exp_add, neg_add_cancel, Real.exp_zero] at this
    have q4 := mul_le_mul_of_nonneg_right he (Real.exp_pos (T / 2)).le
    nlinarith
  have hu0 : u ≤ 0 := by
    obtain ⟨θ, -, rfl⟩ := h; exact mul_nonpos_of_nonpos_of_nonneg hT (Real.exp_pos θ).le
  obtain ⟨e, ee, h2⟩ : ∃ e, f.exp (fin u) = fin e ∧ |e - Real.exp u| ≤ 2 * κ := by
    by_cases h80 : u < -80
    · obtain ⟨e, ee, e0, e1⟩ := C.exp_small u h80
      refine ⟨e, ee, ?_⟩
      have t := C.tiny
      have a : Real.exp u ≤ 2⁻¹ ^ 50 := by
        have a1 : Real.exp u ≤ Real.exp (-50) := Real.exp_le_exp.2 (by linarith)
        have a2 : (2:ℝ) ≤ Real.exp 1 := by linarith [Real.add_one_le_exp (1:ℝ)]
        have a3 : Real.exp (-50) = (Real.exp 1)⁻¹ ^ 50 := by rw [← Real.exp_neg, ← Real.exp_nat_mul]; norm_num
        rw [a3] at a1
        exact a1.trans (pow_le_pow_left₀ (by positivity) (inv_anti₀ (by norm_num) a2) 50)
      have b : e ≤ 2⁻¹ ^ 50 := e1.trans (by norm_num)
      rw [abs_le]
      constructor <;> linarith [Real.exp_pos u]
    · obtain ⟨e, ee, w⟩ := C.exp_norm u (by rw [abs_of_nonpos hu0]; linarith)
      refine ⟨e, ee, (w.abs_sub_le hκ.le (by linarith) (Real.exp_pos u).le).trans ?_⟩
      have : Real.exp u ≤ 1 := Real.exp_le_one_iff.2 hu0
      nlinarith
  refine ⟨e, ee, ?_⟩
  rw [show e - Real.exp T = (e - Real.exp u) + (Real.exp u - Real.exp T) by ring]
  exact (abs_add_le _ _).trans (by linarith)

theorem Arith.Contract.unit_of_arg (C : f.Contract κ) {T u : ℝ} (h : Rel (8 * κ) T u) (hT : T ≤ 79) :
    ∃ v, f.r (1 / f.r (1 + f.exp (fin u))) = fin v ∧ Within (κ * (40 + 16 * max T 0)) (1 / (1 + Real.exp T)) v := by
  have hκ := C.pos
  have hs := C.small
  norm_num at hs
  have hE := Real.exp_pos T
  have fin_part : ∀ {e ε : ℝ}, f.exp (fin u) = fin e → ε ≤ 1 / 2 → Within ε (1 + Real.exp T) (1 + e) →
      ∃ v, f.r (1 / f.r (1 + f.exp (fin u))) = fin v ∧ Within (ε + 4 * κ) (1 / (1 + Real.exp T)) v := by
    intro e ε ee hε w
    have hup : 1 + Real.exp T ≤ 2 ^ 120 := by
      have a1 : Real.exp T ≤ Real.exp 1 ^ 79 := by rw [← Real.exp_nat_mul]; exact Real.exp_le_exp.2 (by norm_num; linarith)
      have a2 : Real.exp 1 ^ 79 ≤ 2.72 ^ 79 := pow_le_pow_left₀ (Real.exp_pos 1).le (by linarith [Real.exp_one_lt_d9]) 79
      have a3 : (2.72:ℝ) ^ 79 ≤ 2 ^ 120 - 1 := by norm_num
      linarith
    have hrg : Rg 120 (1 + Real.exp T) := ⟨(pow_le_one₀ (by norm_num) (by norm_num)).trans (by linarith), hup⟩
    obtain ⟨d, ed, wd⟩ := C.rdW hrg (by norm_num) (by linarith) w
    obtain ⟨v, ev, rv⟩ := C.rel_round ((Rel.refl (x := 1)).div (Rel.of_within hrg.pos wd)) (by linarith)
      (by rw [le_div_iff₀ hrg.pos]
          calc (2⁻¹:ℝ) ^ 122 * (1 + Real.exp T) ≤ 2⁻¹ ^ 122 * 2 ^ 120 := mul_le_mul_of_nonneg_left hup (by positivity)
            _ ≤ 1 := by norm_num)
      (by rw [div_le_iff₀ hrg.pos]; nlinarith)
    have hd : d ≠ 0 := (wd.pos hrg.pos).ne'
    refine ⟨v, ?_, (rv.within (by positivity)).mono (by linarith) (by positivity)⟩
    have ed' : f.r (1 + f.exp (fin u)) = fin d := by rw [ee, one_def, add_fin]; exact ed
    rw [ed', one_def, div_fin hd, ev]
  rcases le_total T 0 with h0 | h0
  · obtain ⟨e, ee, he⟩ := C.exp_neg h0 h
    have w : Within (36 * κ) (1 + Real.exp T) (1 + e) := by
      have := within_of_rel (κ := 18 * κ) (x := 1 + Real.exp T) (y := 1 + e) (by linarith) (by linarith) (by linarith) (by
        rw [show 1 + e - (1 + Real.exp T) = e - Real.exp T by ring, abs_of_pos (by linarith : 0 < 1 + Real.exp T)]
        nlinarith)
      exact this.mono (by linarith) (by linarith)
    obtain ⟨v, ev, wv⟩ := fin_part ee (by linarith) w
    exact ⟨v, ev, wv.mono (by rw [max_eq_right h0]; linarith) (by positivity)⟩
  · have he := h.err (by linarith)
    rw [abs_of_nonneg h0] at he
    have b := abs_le.1 he
    have hu : |u| ≤ 80 := by rw [abs_le]; constructor <;> nlinarith [b.1, b.2]
    obtain ⟨e, ee, we⟩ := C.expA hu he
    have hε : 2 * (8 * κ) * T + κ ≤ 1 / 2 := by nlinarith
    obtain ⟨v, ev, wv⟩ := fin_part ee hε ((Within.refl' (by nlinarith) zero_le_one).add we)
    exact ⟨v, ev, wv.mono (by rw [max_eq_left h0]; nlinarith) (by positivity)⟩

/-- **C152.** The soft truncation, up to 79 scale lengths into the suppressed side: relative error a multiple of the rounding unit, growing with the number of scale lengths on that side only. -/
theorem C152_unit (C : f.Contract κ) {x x0 sgn sc : ℝ} (h : SoftArgs x x0 sgn sc) (hT : sgn * sc * (x - x0) ≤ 79) :
    ∃ v, logistic_unitR f (fin x) (fin x0) (fin sgn) (fin sc) = fin v ∧
      Within (κ * (40 + 16 * max (sgn * sc * (x - x0)) 0)) (1 / (1 + Real.exp (sgn * sc * (x - x0)))) v := by
  obtain ⟨u, eu, ru⟩ := C.soft_arg h
  obtain ⟨v, ev, wv⟩ := C.unit_of_arg ru hT
  refine ⟨v, ?_, wv⟩
  unfold logistic_unitR logistic_functionR
  rw [eu, ev]

/-- the logarithm of the soft truncation on the side where it is near one -/
theorem Arith.Contract.log_unit (C : f.Contract κ) {x x0 sgn sc : ℝ} (h : SoftArgs x x0 sgn sc) (hT : sgn * sc * (x - x0) ≤ 0) :
    ∃ y, f.log (logistic_unitR f (fin x) (fin x0) (fin sgn) (fin sc)) = fin y ∧ |y + Real.log (1 + Real.exp (sgn * sc * (x - x0)))| ≤ 43 * κ := by
  have hκ := C.pos
  have hs := C.small
  norm_num at hs
  obtain ⟨v, ev, wv⟩ := C152_unit C h (by linarith)
  rw [max_eq_right hT] at wv
  have hE := Real.exp_pos (sgn * sc * (x - x0))
  have hE1 : Real.exp (sgn * sc * (x - x0)) ≤ 1 := Real.exp_le_one_iff.2 hT
  have hrg : Rg 1 (1 / (1 + Real.exp (sgn * sc * (x - x0)))) := by
    constructor
    · rw [le_div_iff₀ (by linarith)]; norm_num; linarith
    · rw [div_le_iff₀ (by linarith)]; norm_num; linarith
  obtain ⟨y, ey, hy⟩ := C.logW hrg (by norm_num) (by linarith) wv
  refine ⟨y, by rw [ev, ey], ?_⟩
  rw [one_div, Real.log_inv, sub_neg_eq_add] at hy
  exact hy.trans (by norm_num; linarith)

/-- **C152.** The logarithm of the soft truncation by `log_logistic_unit`, at any distance: absolute error a multiple of the rounding unit on the side where nothing is suppressed, relative on the other side. -/
theorem C152_log (C : f.Contract κ) {x x0 sgn sc : ℝ} (h : SoftArgs x x0 sgn sc) :
    ∃ y, log_logistic_unitR f (fin x) (fin x0) (fin sgn) (fin sc) = fin y ∧
      |y + Real.log (1 + Real.exp (sgn * sc * (x - x0)))| ≤ κ * (46 + 14 * max (sgn * sc * (x - x0)) 0) := by
  have hκ := C.pos
  have hs := C.small
  norm_num at hs
  have fs := Fine.sign h.sign
  obtain ⟨d, ed, rd⟩ := C.fine_round (Rel.refl (x := x - x0)) (by norm_num) (by norm_num) h.diff
  obtain ⟨b, eb, rb⟩ := C.fine_round (rd.mul (Rel.refl (x := sgn))) (by linarith) (by norm_num) (h.diff.mul fs)
  obtain ⟨t, et, rt⟩ := C.fine_round (rb.mul (Rel.refl (x := sc))) (by linarith) (by norm_num) ((h.diff.mul fs).mul h.scale)
  have etest : f.r (f.r (f.r (fin x - fin x0) * fin sgn) * fin sc) = fin t := by rw [sub_fin, ed, mul_fin, eb, mul_fin, et]
  have ht : t < 0 ↔ sgn * sc * (x - x0) < 0 := by
    obtain ⟨θ, -, rfl⟩ := rt
    rw [show (x - x0) * sgn * sc = sgn * sc * (x - x0) by ring]
    constructor <;> intro h <;> nlinarith [Real.exp_pos θ]
  unfold log_logistic_unitR
  simp only [etest, zero_def, lt_fin]
  by_cases hneg : sgn * sc * (x - x0) < 0
  · rw [if_pos (ht.2 hneg)]
    obtain ⟨y, ey, hy⟩ := C.log_unit h hneg.le
    exact ⟨y, ey, hy.trans (by rw [max_eq_right hneg.le]; linarith)⟩
  · rw [if_neg (mt ht.1 hneg)]
    set T := sgn * sc * (x - x0) with hTdef
    have h0 : 0 ≤ T := not_lt.1 hneg
    obtain ⟨y, ey, hy⟩ := C.log_unit h.flip (by rw [show -sgn * sc * (x - x0) = -T by rw [hTdef]; ring]; linarith)
    rw [show -sgn * sc * (x - x0) = -T by rw [hTdef]; ring] at hy
    obtain ⟨k, ek, rk⟩ := C.fine_round (Rel.refl (x := -sgn * sc)) (by norm_num) (by norm_num) (fs.neg.mul h.scale)
    obtain ⟨w, ew, rw'⟩ := C.fine_round (rk.mul rd) (by linarith) (by norm_num) ((fs.neg.mul h.scale).mul h.diff)
    have hw := rw'.err (by linarith)
    rw [show -sgn * sc * (x - x0) = -T by rw [hTdef]; ring, abs_neg, abs_of_nonneg h0] at hw
    have id : -Real.log (1 + Real.exp T) = -T - Real.log (1 + Real.exp (-T)) := by
      have : 1 + Real.exp T = Real.exp T * (1 + Real.exp (-T)) := by rw [mul_add, ← Real.exp_add]; simp; ring
      rw [this, Real.log_mul (Real.exp_pos T).ne' (by positivity), Real.log_exp]; ring
    have hl0 : 0 ≤ Real.log (1 + Real.exp (-T)) := Real.log_nonneg (by linarith [Real.exp_pos (-T)])
    have hl1 : Real.log (1 + Real.exp (-T)) ≤ 1 := by
      have e1 : Real.exp (-T) ≤ 1 := Real.exp_le_one_iff.2 (by linarith)
      have := Real.log_le_sub_one_of_pos (show 0 < 1 + Real.exp (-T) by positivity)
      linarith
    have hTle : T ≤ 2 ^ 80 := (le_abs_self T).trans h.le
    have hsum : |(w + y) - -Real.log (1 + Real.exp T)| ≤ 12 * κ * T + 43 * κ := by
      rw [id, show w + y - (-T - Real.log (1 + Real.exp (-T))) = (w - -T) + (y + Real.log (1 + Real.exp (-T))) by ring]
      exact (abs_add_le _ _).trans (by nlinarith)
    obtain ⟨r, er, hr⟩ := C.rdA (K := 2 * T + 2) (by
      rw [id, abs_of_nonpos (by linarith)]
      nlinarith) (by norm_num at hTle ⊢; linarith) hsum
    refine ⟨r, ?_, ?_⟩
    · rw [sub_fin, ed, neg_fin, mul_fin, ek, mul_fin, ew, ey, add_fin]; exact er
    · rw [sub_neg_eq_add] at hr
      rw [max_eq_left h0]
      exact hr.trans (by nlinarith)

/-- **C152.** Without rounding these are the functions of C20 and C21. -/
theorem C152_exact (x x0 sgn sc : F) : logistic_unitR Arith.exact x x0 sgn sc = logistic_unit x x0 sgn sc ∧ log_logistic_unitR Arith.exact x x0 sgn sc = log_logistic_unit x x0 sgn sc := by
  constructor
  · simp only [logistic_unitR, logistic_functionR, logistic_unit, logistic_function, exact_r]; rfl
  · simp only [log_logistic_unitR, logistic_unitR, logistic_functionR, log_logistic_unit, logistic_unit, logistic_function, exact_r]; rfl

/-! ### single precision -/

theorem rd32_over {x : ℝ} (h : 2 ^ 129 ≤ x) : rd32 x = pinf := by
  have h0 : 0 < x := lt_of_lt_of_le (by positivity) h
  have hu : ulp32 x ≤ x * 2⁻¹ ^ 23 := by
    unfold ulp32
    have hl : (-126:ℤ) ≤ Int.log 2 |x| := by
      rw [abs_of_pos h0]
      exact (Int.zpow_le_iff_le_log one_lt_two h0).1 (le_trans (by norm_num) h)
    rw [max_eq_left hl, zpow_sub₀ (by norm_num)]
    have := Int.zpow_log_le_self one_lt_two (abs_pos.2 h0.ne')
    rw [abs_of_pos h0] at this ⊢
    have e : (2:ℝ) ^ Int.log 2 x ≤ x := by exact_mod_cast this
    rw [div_eq_mul_inv]
    refine mul_le_mul e (by norm_num) (by positivity) h0.le
  have he := abs_le.1 (rd32_err x)
  have hy : (2:ℝ) ^ 128 ≤ (round (x / ulp32 x) : ℝ) * ulp32 x := by
    have : x * 2⁻¹ ^ 23 ≤ x / 2 := by rw [div_eq_mul_inv]; exact mul_le_mul_of_nonneg_left (by norm_num) h0.le
    have h' : (2:ℝ) ^ 129 = 4 * 2 ^ 127 := by norm_num
    have h'' : (2:ℝ) ^ 128 = 2 * 2 ^ 127 := by norm_num
    linarith [he.1]
  unfold rd32
  exact if_pos hy

/-- **C152**, failure of the linear form far on the suppressed side: in single precision the exponential overflows, the soft truncation is exactly zero and its logarithm minus infinity, where `log_logistic_unit`
(`C152_log`) is a number with a small relative error. -/
theorem C152_linear_fails {x x0 sgn sc : ℝ} (h : SoftArgs x x0 sgn sc) (hT : 100 ≤ sgn * sc * (x - x0)) :
    logistic_unitR binary32 (fin x) (fin x0) (fin sgn) (fin sc) = fin 0 ∧ binary32.log (logistic_unitR binary32 (fin x) (fin x0) (fin sgn) (fin sc)) = ninf := by
  have C := binary32_contract
  have hs := C.small
  have hκ := C.pos
  norm_num at hs
  obtain ⟨u, eu, ru⟩ := C.soft_arg h
  have he := abs_le.1 (ru.err (by linarith))
  rw [abs_of_nonneg (by linarith)] at he
  have hu : 90 ≤ u := by nlinarith [he.1]
  have hexp : (2:ℝ) ^ 129 ≤ Real.exp u := by
    have a1 : Real.exp 1 ^ 90 ≤ Real.exp u := by rw [← Real.exp_nat_mul]; exact Real.exp_le_exp.2 (by norm_num; linarith)
    have a2 : (2.718:ℝ) ^ 90 ≤ Real.exp 1 ^ 90 := pow_le_pow_left₀ (by norm_num) (by linarith [Real.exp_one_gt_d9]) 90
    exact le_trans (by norm_num) (a2.trans a1)
  have ee : binary32.exp (fin u) = pinf := by
    show (match F.exp (fin u) with | fin x => rd32 x | v => v) = _
    rw [exp_fin]
    exact rd32_over hexp
  have e0 : logistic_unitR binary32 (fin x) (fin x0) (fin sgn) (fin sc) = fin 0 := by
    unfold logistic_unitR logistic_functionR
    rw [eu, ee, one_def, fin_add_pinf]
    show binary32.r (fin 1 / pinf) = fin 0
    rw [fin_div_pinf]
    exact C.rd_zero
  exact ⟨e0, by rw [e0]; exact C.log_zero⟩

/-! ### the power law with soft ends -/

/-- the factor of an optional soft end -/
def softFactor (x sgn sc : ℝ) : Option ℝ → ℝ
  | none => 1
  | some x0 => 1 / (1 + Real.exp (sgn * sc * (x - x0)))

/-- what it adds to the relative error, in rounding units -/
def softCost (x sgn sc : ℝ) : Option ℝ → ℝ
  | none => 0
  | some x0 => 42 + 16 * max (sgn * sc * (x - x0)) 0

/-- what is asked of it -/
def SoftEnd (x sgn sc : ℝ) : Option ℝ → Prop
  | none => True
  | some x0 => SoftArgs x x0 sgn sc ∧ sgn * sc * (x - x0) ≤ 20

theorem softFactor_bounds {x sgn sc : ℝ} {o : Option ℝ} (h : SoftEnd x sgn sc o) : (2⁻¹:ℝ) ^ 30 ≤ softFactor x sgn sc o ∧ softFactor x sgn sc o ≤ 1 := by
  cases o with
  | none => exact ⟨pow_le_one₀ (by norm_num) (by norm_num), le_rfl⟩
  | some x0 =>
    have hE := Real.exp_pos (sgn * sc * (x - x0))
    have a1 : Real.exp (sgn * sc * (x - x0)) ≤ Real.exp 1 ^ 20 := by rw [← Real.exp_nat_mul]; exact Real.exp_le_exp.2 (by norm_num; exact h.2)
    have a2 : Real.exp 1 ^ 20 ≤ 2.72 ^ 20 := pow_le_pow_left₀ (Real.exp_pos 1).le (by linarith [Real.exp_one_lt_d9]) 20
    have a3 : (2.72:ℝ) ^ 20 ≤ 2 ^ 30 - 1 := by norm_num
    unfold softFactor
    constructor
    · rw [inv_pow, inv_eq_one_div]; exact one_div_le_one_div_of_le (by positivity) (by linarith)
    · rw [div_le_one (by positivity)]; linarith

theorem softCost_bounds {x sgn sc : ℝ} {o : Option ℝ} (h : SoftEnd x sgn sc o) : 0 ≤ softCost x sgn sc o ∧ softCost x sgn sc o ≤ 362 := by
  cases o with
  | none => exact ⟨le_rfl, by norm_num [softCost]⟩
  | some x0 =>
    unfold softCost
    have := le_max_right (sgn * sc * (x - x0)) 0
    have h2 : max (sgn * sc * (x - x0)) 0 ≤ 20 := max_le h.2 (by norm_num)
    constructor <;> linarith

theorem Arith.Contract.soft_end (C : f.Contract κ) {x sgn sc : ℝ} {o : Option ℝ} (h : SoftEnd x sgn sc o) {ε P p : ℝ} (hp : Rel ε P p) (hε : ε ≤ 1 / 2) (h1 : (2⁻¹:ℝ) ^ 90 ≤ P) (h2 : P ≤ 2 ^ 90) :
    ∃ z, (match o.map fin with | none => fin p | some x0 => f.r (fin p * logistic_unitR f (fin x) x0 (fin sgn) (fin sc))) = fin z ∧ Rel (ε + κ * softCost x sgn sc o) (P * softFactor x sgn sc o) z := by
  have hκ := C.pos
  have hs := C.small
  norm_num at hs
  cases o with
  | none => exact ⟨p, rfl, by simpa [softFactor, softCost] using hp⟩
  | some x0 =>
    have b := softFactor_bounds h
    obtain ⟨v, ev, wv⟩ := C152_unit C h.1 (h.2.trans (by norm_num))
    have hm : max (sgn * sc * (x - x0)) 0 ≤ 20 := max_le h.2 (by norm_num)
    have hm0 := le_max_right (sgn * sc * (x - x0)) 0
    obtain ⟨z, ez, rz⟩ := C.rel_round (hp.mul (Rel.of_within (by positivity) wv)) (by nlinarith)
      (calc (2⁻¹:ℝ) ^ 122 ≤ 2⁻¹ ^ 90 * 2⁻¹ ^ 30 := by norm_num
        _ ≤ _ := mul_le_mul h1 b.1 (by positivity) (le_trans (by positivity) h1))
      (calc _ ≤ (2:ℝ) ^ 90 * 1 := mul_le_mul h2 b.2 (le_trans (by positivity) b.1) (by positivity)
        _ ≤ 2 ^ 122 := by norm_num)
    refine ⟨z, ?_, rz.mono (by unfold softCost; linarith)⟩
    simp only [Option.map_some]
    rw [ev, mul_fin, ez]

/-- **C152.** The power law with soft ends, either of which may be missing, up to 20 scale lengths into the suppressed sides. -/
theorem C152_powerlaw (C : f.Contract κ) {pw : F → F → F} (P : PowContract pw κ) {x α fl fh : ℝ} {low high : Option ℝ} (h1 : (2⁻¹:ℝ) ^ 7 ≤ x) (h2 : x ≤ 2 ^ 7) (hα : |α| ≤ 7) (hl : SoftEnd x (-1) fl low)
    (hh : SoftEnd x 1 fh high) :
    ∃ p, powerlaw_logit_pdfR f pw (fin x) (fin α) (low.map fin) (high.map fin) (fin fl) (fin fh) = fin p ∧
      Within (κ * (1 + softCost x (-1) fl low + softCost x 1 fh high)) (x ^ α * softFactor x (-1) fl low * softFactor x 1 fh high) p := by
  have hκ := C.pos
  have hs := C.small
  norm_num at hs
  have x0 : 0 < x := lt_of_lt_of_le (by positivity) h1
  have a := rpow_range (b := 49) h1 h2 hα (by norm_num)
  obtain ⟨p, ep, wp⟩ := P x α (le_trans (by unfold flLo; norm_num) h1) (h2.trans (by unfold flHi; norm_num)) (le_trans (by unfold flLo; norm_num) a.1) (a.2.trans (by unfold flHi; norm_num))
  have bl := softFactor_bounds hl
  have cl := softCost_bounds hl
  have bh := softFactor_bounds hh
  obtain ⟨p', ep', rp'⟩ := C.soft_end hl (Rel.of_within (Real.rpow_pos_of_pos x0 α) wp) (by linarith) (le_trans (by norm_num) a.1) (a.2.trans (by norm_num))
  obtain ⟨p'', ep'', rp''⟩ := C.soft_end hh rp' (by nlinarith)
    (calc (2⁻¹:ℝ) ^ 90 ≤ 2⁻¹ ^ 49 * 2⁻¹ ^ 30 := by norm_num
      _ ≤ _ := mul_le_mul a.1 bl.1 (by positivity) (le_trans (by positivity) a.1))
    (calc _ ≤ (2:ℝ) ^ 49 * 1 := mul_le_mul a.2 bl.2 (le_trans (by positivity) bl.1) (by positivity)
      _ ≤ 2 ^ 90 := by norm_num)
  refine ⟨p'', ?_, ?_⟩
  · unfold powerlaw_logit_pdfR
    rw [one_def, neg_fin, ep]
    cases low <;> cases high <;> simp only [Option.map_some, Option.map_none] at ep' ep'' ⊢ <;> rw [ep', ep'']
  · have pos : 0 ≤ x ^ α * softFactor x (-1) fl low * softFactor x 1 fh high :=
      mul_nonneg (mul_nonneg (Real.rpow_nonneg x0.le α) (le_trans (by positivity) bl.1)) (le_trans (by positivity) bh.1)
    exact (rp''.within pos).mono (by linarith) pos

/-- **C152.** The joint density of primary mass and mass ratio with soft ends in the primary mass. -/
theorem C152_falloff (C : f.Contract κ) {pw : F → F → F} (P : PowContract pw κ) {m1 q α β mmin mmax fo K : ℝ} (h1 : (2⁻¹:ℝ) ^ 7 ≤ m1) (h2 : m1 ≤ 2 ^ 7) (hα : |α| ≤ 7) (hl : SoftEnd m1 (-1) fo (some mmin))
    (hh : SoftEnd m1 1 4 (some mmax)) (rq : RatioRange κ β (mmin / m1) q) (hq : ratioErr (1 + β) (Real.log (1 / (mmin / m1))) ≤ K) (hK : κ * K ≤ 1 / 2)
    (hsize : Rg 122 (plDensity q β (mmin / m1) 1 * (m1 ^ α * softLow m1 mmin fo * softHigh m1 mmax 4))) :
    ∃ p, powerlaw_primary_ratio_falloff_pdfR f pw (fin m1) (fin q) (fin α) (fin β) (fin mmin) (fin mmax) (fin fo) = fin p ∧
      Within (κ * (87 + K + 16 * max (-(fo * (m1 - mmin))) 0 + 16 * max (4 * (m1 - mmax)) 0)) (plDensity q β (mmin / m1) 1 * (m1 ^ α * softLow m1 mmin fo * softHigh m1 mmax 4)) p := by
  have hκ := C.pos
  have hs := C.small
  norm_num at hs
  have m0 : 0 < m1 := lt_of_lt_of_le (by positivity) h1
  have hK' := mul_le_mul_of_nonneg_left hq hκ.le
  obtain ⟨a, ea, wa, pa⟩ := C147_ratio C P m0 rq (by linarith)
  obtain ⟨b, eb, wb⟩ := C152_powerlaw C P h1 h2 hα hl hh
  have cl := softCost_bounds hl
  have ch := softCost_bounds hh
  have el : softFactor m1 (-1) fo (some mmin) = softLow m1 mmin fo := by show 1 / (1 + Real.exp (-1 * fo * (m1 - mmin))) = _; unfold softLow; rw [show -1 * fo * (m1 - mmin) = -(fo * (m1 - mmin)) by ring]
  have eh : softFactor m1 1 4 (some mmax) = softHigh m1 mmax 4 := by show 1 / (1 + Real.exp (1 * 4 * (m1 - mmax))) = _; unfold softHigh; rw [one_mul]
  rw [el, eh] at wb
  have pb : 0 < m1 ^ α * softLow m1 mmin fo * softHigh m1 mmax 4 := by unfold softLow softHigh; have := Real.rpow_pos_of_pos m0 α; positivity
  obtain ⟨p, ep, rp⟩ := C.rel_round ((Rel.of_within pa wa).mul (Rel.of_within pb wb)) (by nlinarith) hsize.1 hsize.2
  refine ⟨p, ?_, (rp.within (by positivity)).mono ?_ (by positivity)⟩
  · unfold powerlaw_primary_ratio_falloff_pdfR
    have eb' : powerlaw_logit_pdfR f pw (fin m1) (fin α) (some (fin mmin)) (some (fin mmax)) (fin fo) 4 = fin b := eb
    rw [ea, eb', mul_fin, ep]
  · have e1 : softCost m1 (-1) fo (some mmin) = 42 + 16 * max (-(fo * (m1 - mmin))) 0 := by show 42 + 16 * max (-1 * fo * (m1 - mmin)) 0 = _; rw [show -1 * fo * (m1 - mmin) = -(fo * (m1 - mmin)) by ring]
    have e2 : softCost m1 1 4 (some mmax) = 42 + 16 * max (4 * (m1 - mmax)) 0 := by show 42 + 16 * max (1 * 4 * (m1 - mmax)) 0 = _; rw [one_mul]
    rw [e1, e2]
    linarith

/-- **C152.** Without rounding these are the functions of C20 and C77. -/
theorem C152_exact_density (m1 q alpha beta mmin mmax fo : F) (low high : Option F) (fl fh : F) :
    powerlaw_logit_pdfR Arith.exact F.pow m1 alpha low high fl fh = powerlaw_logit_pdf m1 alpha low high fl fh ∧
      powerlaw_primary_ratio_falloff_pdfR Arith.exact F.pow m1 q alpha beta mmin mmax fo = powerlaw_primary_ratio_falloff_pdf m1 q alpha beta mmin mmax fo := by
  have e : ∀ low high fl fh, powerlaw_logit_pdfR Arith.exact F.pow m1 alpha low high fl fh = powerlaw_logit_pdf m1 alpha low high fl fh := by
    intro low high fl fh
    cases low <;> cases high <;> simp only [powerlaw_logit_pdfR, powerlaw_logit_pdf, exact_r, (C152_exact _ _ _ _).1]
  exact ⟨e _ _ _ _, by simp only [powerlaw_primary_ratio_falloff_pdfR, powerlaw_primary_ratio_falloff_pdf, e, exact_r, C140_exact]⟩

/-- masses between 4 and 200, the soft cut above 80 with the default scale 4 -/
theorem soft_example {x : ℝ} (h1 : 81 ≤ x) (h2 : x ≤ 200) : SoftArgs x 80 1 4 :=
  ⟨.inl rfl, .inr ⟨by rw [abs_of_nonneg (by linarith)]; exact le_trans (by norm_num) (by linarith : (1:ℝ) ≤ x - 80), by rw [abs_of_nonneg (by linarith)]; exact le_trans (by linarith : x - 80 ≤ 120) (by norm_num)⟩,
    .inr ⟨by norm_num, by norm_num⟩⟩

/-- a mass of 110 with the soft cut above 80: the linear form is zero, the logarithmic one near −120 -/
example : logistic_unitR binary32 (fin 110) (fin 80) (fin 1) (fin 4) = fin 0 ∧ ∃ y, log_logistic_unitR binary32 (fin 110) (fin 80) (fin 1) (fin 4) = fin y ∧ |y + 120| ≤ 1 / 100 := by
  refine ⟨(C152_linear_fails (soft_example (x := 110) (by norm_num) (by norm_num)) (by norm_num)).1, ?_⟩
  obtain ⟨y, ey, hy⟩ := C152_log binary32_contract (soft_example (x := 110) (by norm_num) (by norm_num))
  refine ⟨y, ey, ?_⟩
  have a : Real.log (1 + Real.exp 120) - 120 ≤ 1 / 1000 ∧ 0 ≤ Real.log (1 + Real.exp 120) - 120 := by
    have e : 1 + Real.exp 120 = Real.exp 120 * (1 + Real.exp (-120)) := by rw [mul_add, ← Real.exp_add]; simp; ring
    rw [e, Real.log_mul (Real.exp_pos _).ne' (by positivity), Real.log_exp]
    have l0 : 0 ≤ Real.log (1 + Real.exp (-120)) := Real.log_nonneg (by linarith [Real.exp_pos (-120:ℝ)])
    have l1 := Real.log_le_sub_one_of_pos (show 0 < 1 + Real.exp (-120:ℝ) by positivity)
    have l2 : Real.exp (-120:ℝ) ≤ 1 / 1000 := by
      have a1 : (1000:ℝ) ≤ Real.exp 120 := by
        have q := Real.quadratic_le_exp_of_nonneg (show (0:ℝ) ≤ 120 by norm_num)
        linarith
      rw [Real.exp_neg, one_div]
      exact inv_anti₀ (by norm_num) a1
    constructor <;> linarith
  norm_num at hy
  have hy' := abs_le.1 hy
  rw [abs_le]
  constructor <;> linarith [hy'.1, hy'.2, a.1, a.2]

/-- power law of slope −3 with the soft ends 5 and 80: relative error at most `2⁻¹⁴` from 6 to 79 solar masses -/
example {x : ℝ} (h1 : 6 ≤ x) (h2 : x ≤ 79) :
    ∃ p, powerlaw_logit_pdfR binary32 pow32 (fin x) (fin (-3)) (some (fin 5)) (some (fin 80)) (fin 4) (fin 4) = fin p ∧ Within (2⁻¹ ^ 14) (x ^ (-3:ℝ) * softFactor x (-1) 4 (some 5) * softFactor x 1 4 (some 80)) p := by
  have hl : SoftEnd x (-1) 4 (some 5) := ⟨⟨.inr rfl, .inr ⟨by rw [abs_of_nonneg (by linarith)]; exact le_trans (by norm_num) (by linarith : (1:ℝ) ≤ x - 5),
    by rw [abs_of_nonneg (by linarith)]; exact le_trans (by linarith : x - 5 ≤ 120) (by norm_num)⟩, .inr ⟨by norm_num, by norm_num⟩⟩, by linarith⟩
  have hh : SoftEnd x 1 4 (some 80) := ⟨⟨.inl rfl, .inr ⟨by rw [abs_of_nonpos (by linarith)]; exact le_trans (by norm_num) (by linarith : (1:ℝ) ≤ -(x - 80)),
    by rw [abs_of_nonpos (by linarith)]; exact le_trans (by linarith : -(x - 80) ≤ 120) (by norm_num)⟩, .inr ⟨by norm_num, by norm_num⟩⟩, by linarith⟩
  obtain ⟨p, ep, wp⟩ := C152_powerlaw (low := some 5) (high := some 80) (fl := 4) (fh := 4) (α := -3) binary32_contract pow32_contract (le_trans (by norm_num) h1) (h2.trans (by norm_num)) (by norm_num) hl hh
  refine ⟨p, ep, wp.mono ?_ ?_⟩
  · unfold softCost
    simp only
    rw [max_eq_right (by linarith), max_eq_right (by linarith)]
    norm_num
  · exact mul_nonneg (mul_nonneg (Real.rpow_nonneg (by linarith) _) (le_trans (by positivity) (softFactor_bounds hl).1)) (le_trans (by positivity) (softFactor_bounds hh).1)

end GW
end
