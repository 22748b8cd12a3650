import Verif.Model.PyNumbers

/-!
# C138: Python numbers and arrays as arguments give the same result
-/

noncomputable section
open Classical
namespace GW
open F PV

namespace PV

@[simp] theorem val_add (a b : PV) : (a + b).val = a.val + b.val := by cases a <;> cases b <;> rfl
@[simp] theorem val_sub (a b : PV) : (a - b).val = a.val - b.val := by cases a <;> cases b <;> rfl
@[simp] theorem val_mul (a b : PV) : (a * b).val = a.val * b.val := by cases a <;> cases b <;> rfl
@[simp] theorem val_one : (1 : PV).val = 1 := rfl
@[simp] theorem val_py (v : F) : (py v).val = v := rfl
@[simp] theorem val_arr (v : F) : (arr v).val = v := rfl
@[simp] theorem val_jlog (a : PV) : (jlog a).val = F.log a.val := rfl
@[simp] theorem isPy_py (v : F) : (py v).isPy := trivial
@[simp] theorem isPy_arr (v : F) : ¬ (arr v).isPy := id
@[simp] theorem isPy_one : (1 : PV).isPy := trivial
@[simp] theorem isPy_jlog (a : PV) : ¬ (jlog a).isPy := id
@[simp] theorem isPy_add (a b : PV) : (a + b).isPy ↔ a.isPy ∧ b.isPy := by
  cases a <;> cases b <;> simp [HAdd.hAdd, Add.add, lift]
@[simp] theorem isPy_sub (a b : PV) : (a - b).isPy ↔ a.isPy ∧ b.isPy := by
  cases a <;> cases b <;> simp [HSub.hSub, Sub.sub, lift]
@[simp] theorem isPy_mul (a b : PV) : (a * b).isPy ↔ a.isPy ∧ b.isPy := by
  cases a <;> cases b <;> simp [HMul.hMul, Mul.mul, lift]

/-- a value with given kind -/
def mk' (p : Prop) (v : F) : PV := if p then py v else arr v
@[simp] theorem val_mk' (p : Prop) (v : F) : (mk' p v).val = v := by unfold mk'; split_ifs <;> rfl
@[simp] theorem isPy_mk' (p : Prop) (v : F) : (mk' p v).isPy ↔ p := by unfold mk'; split_ifs with h <;> simp [h]

theorem div_eq (a b : PV) : PV.div a b = if a.isPy ∧ b.isPy ∧ b.val = fin 0 then .error .zeroDivisionError
    else .ok (mk' (a.isPy ∧ b.isPy) (a.val / b.val)) := by
  cases a <;> cases b <;> simp [PV.div, mk']

theorem pow_eq (a b : PV) : PV.pow a b =
    if a.isPy ∧ b.isPy ∧ a.val = fin 0 ∧ ∃ y : ℝ, y < 0 ∧ b.val = fin y then .error .zeroDivisionError
    else .ok (mk' (a.isPy ∧ b.isPy) (F.pow a.val b.val)) := by
  cases a <;> cases b <;> simp [PV.pow, mk']

end PV

/-- powers of two different positive numbers agree only for the exponent zero -/
theorem rpow_eq_rpow_iff {l h e : ℝ} (hl : 0 < l) (hlh : l < h) : h ^ e - l ^ e = 0 ↔ e = 0 := by
  constructor
  · intro H
    by_contra he
    have : h ^ e = l ^ e := by linarith
    have := (Real.rpow_left_inj (hl.le.trans hlh.le) hl.le he).1 this
    linarith
  · rintro rfl; simp

theorem powFin_pos' {x : ℝ} (hx : 0 < x) (y : ℝ) : F.pow (fin x) (fin y) = fin (x ^ y) := by
  simp only [F.pow, powFin]
  by_cases hy : y = 0
  · simp [hy]
  · simp [hy, hx]

/-- **C138 (partial).** `powerlaw_pdf` for bounds `0 < low < high`: it raises `ZeroDivisionError` exactly when slope and both bounds are
Python numbers and the slope is -1; otherwise it returns the value of the array model, whichever of the arguments are Python numbers.
Missing: the slope -1 with Python numbers (`C138_slope_minus_one_fails`). -/
theorem C138_powerlaw_partial (xx floor : F) {alpha low high : PV} {α l h : ℝ} (ha : alpha.val = fin α) (hl : low.val = fin l)
    (hh : high.val = fin h) (h0 : 0 < l) (hlh : l < h) :
    powerlaw_pdfPy xx alpha low high floor =
      if alpha.isPy ∧ low.isPy ∧ high.isPy ∧ α = -1 then .error .zeroDivisionError
      else .ok (powerlaw_pdf xx (fin α) (fin l) (fin h) floor) := by
  have hh0 : 0 < h := h0.trans hlh
  have e1 : ¬ (fin h = fin 0) := by simp [hh0.ne']
  have e2 : ¬ (fin l = fin 0) := by simp [h0.ne']
  simp only [powerlaw_pdfPy, PV.div_eq, PV.pow_eq, ha, hl, hh, val_add, val_one, e1, e2, and_false, false_and, if_false, one_def, add_fin,
    powFin_pos' hh0, powFin_pos' h0, val_sub, val_mk', sub_fin, isPy_jlog, isPy_sub, isPy_mk', isPy_add, isPy_one, true_and,
    F.fin.injEq, rpow_eq_rpow_iff h0 hlh, val_jlog, val_py, isPy_py, bind, Except.bind, pure, Except.pure]
  by_cases hc : alpha.isPy ∧ low.isPy ∧ high.isPy ∧ α = -1
  · obtain ⟨c1, c2, c3, rfl⟩ := hc
    simp [c1, c2, c3]
  · rw [if_neg hc, if_neg (by rintro ⟨c1, ⟨⟨c2, -⟩, c3, -⟩, c4⟩; exact hc ⟨c1, c3, c2, by linarith⟩)]
    simp [powerlaw_pdf, powFin_pos' hh0, powFin_pos' h0]

/-- **C138 is false of the code.** With the slope -1 and both bounds given as Python numbers, `powerlaw_pdf` raises `ZeroDivisionError` for
every sample, although the branch that divides by zero is not the one selected; with any of the three in an array it returns the density. -/
theorem C138_slope_minus_one_fails (xx floor : F) {l h : ℝ} (h0 : 0 < l) (hlh : l < h) :
    powerlaw_pdfPy xx (py (fin (-1))) (py (fin l)) (py (fin h)) floor = .error .zeroDivisionError ∧
      powerlaw_pdfPy xx (arr (fin (-1))) (py (fin l)) (py (fin h)) floor = .ok (powerlaw_pdf xx (fin (-1)) (fin l) (fin h) floor) ∧
      powerlaw_pdfPy xx (py (fin (-1))) (arr (fin l)) (py (fin h)) floor = .ok (powerlaw_pdf xx (fin (-1)) (fin l) (fin h) floor) := by
  refine ⟨?_, ?_, ?_⟩ <;> rw [C138_powerlaw_partial xx floor rfl rfl rfl h0 hlh] <;> simp

example : powerlaw_pdfPy (fin 10) (py (fin (-1))) (py (fin 5)) (py (fin 100)) = .error .zeroDivisionError :=
  (C138_slope_minus_one_fails _ _ (by norm_num) (by norm_num)).1
example : powerlaw_pdfPy (fin 10) (py (fin (-2))) (py (fin 5)) (py (fin 100)) =
    .ok (powerlaw_pdf (fin 10) (fin (-2)) (fin 5) (fin 100)) := by
  rw [C138_powerlaw_partial _ _ rfl rfl rfl (by norm_num) (by norm_num), if_neg (by rintro ⟨-, -, -, h⟩; norm_num at h)]

/-- **C138 is false of the code.** A lower bound that is the Python number zero raises for every slope when the upper bound is a Python
number; with the bounds in arrays the call returns. -/
theorem C138_lower_bound_zero_fails (xx floor : F) (alpha : PV) (h : F) :
    powerlaw_pdfPy xx alpha (py (fin 0)) (py h) floor = .error .zeroDivisionError ∧
      ∃ v, powerlaw_pdfPy xx alpha (arr (fin 0)) (arr h) floor = .ok v := by
  constructor
  · simp [powerlaw_pdfPy, PV.div, bind, Except.bind]
  · simp [powerlaw_pdfPy, PV.div_eq, PV.pow_eq, bind, Except.bind, pure, Except.pure]

/-- **C138 (partial).** `truncnorm_pdf` raises `ZeroDivisionError` exactly when the width is the Python number zero (in the log-normal form:
when width and sample are Python numbers and one of them is zero); otherwise it returns the value of the array model. -/
theorem C138_truncnorm_partial (xx mu sig low high : PV) {s : ℝ} (hs : sig.val = fin s) :
    truncnorm_pdfPy xx mu sig low high false =
      (if sig.isPy ∧ s = 0 then .error .zeroDivisionError
       else .ok (truncnorm_pdf xx.val mu.val (fin s) low.val high.val false)) ∧
    ∀ {x : ℝ}, xx.val = fin x → truncnorm_pdfPy xx mu sig low high true =
      (if xx.isPy ∧ sig.isPy ∧ (x = 0 ∨ s = 0) then .error .zeroDivisionError
       else .ok (truncnorm_pdf xx.val mu.val (fin s) low.val high.val true)) := by
  have hpi : (0:ℝ) < 2 * Real.pi := by positivity
  have hrt : F.pow (2 * fin Real.pi) (fin (1/2)) = fin ((2 * Real.pi) ^ (1/2 : ℝ)) := by
    rw [ofNat_def, mul_fin, powFin_pos' hpi]
  have hrt0 : ((2 * Real.pi) ^ (1/2 : ℝ)) ≠ 0 := (Real.rpow_pos_of_pos hpi _).ne'
  have h2 : F.pow 2 (fin (1/2)) = fin ((2:ℝ) ^ (1/2 : ℝ)) := by rw [ofNat_def, powFin_pos' (by norm_num)]
  have h20 : ((2:ℝ) ^ (1/2 : ℝ)) ≠ 0 := (Real.rpow_pos_of_pos (by norm_num) _).ne'
  have hneg : ¬ ∃ y : ℝ, y < 0 ∧ (2 : F) = fin y := by
    rintro ⟨y, hy, he⟩; rw [ofNat_def, F.fin.injEq] at he; rw [← he] at hy; norm_num at hy
  constructor
  · by_cases hc : sig.isPy ∧ s = 0
    · obtain ⟨c1, rfl⟩ := hc
      simp only [truncnorm_pdfPy, PV.div_eq, PV.pow_eq, hs, val_py, hneg, and_false, if_false, bind, Except.bind, isPy_arr, false_and,
        isPy_py, true_and, isPy_mul, c1, val_mul, hrt, mul_fin, zero_mul, Bool.false_eq_true]
      simp
    · rw [if_neg hc]
      have k : ∀ P : Prop, ¬ (P ∧ (sig.isPy ∧ True) ∧ s * (2 : ℝ) ^ (1 / 2 : ℝ) = 0) := by
        rintro P ⟨-, ⟨c, -⟩, h⟩; exact hc ⟨c, (mul_eq_zero.1 h).resolve_right h20⟩
      have k' : ¬ (True ∧ (sig.isPy ∧ True) ∧ s * (2 * Real.pi) ^ (1 / 2 : ℝ) = 0) := by
        rintro ⟨-, ⟨c, -⟩, h⟩; exact hc ⟨c, (mul_eq_zero.1 h).resolve_right hrt0⟩
      simp only [truncnorm_pdfPy, PV.div_eq, PV.pow_eq, hs, val_py, hneg, and_false, if_false, bind, Except.bind, isPy_arr, false_and,
        isPy_py, isPy_mul, val_mul, hrt, h2, mul_fin, Bool.false_eq_true, F.fin.injEq, k, k', pure, Except.pure, val_mk', val_arr, val_sub,
        truncnorm_pdf]
  · intro x hx
    by_cases hc : xx.isPy ∧ sig.isPy ∧ (x = 0 ∨ s = 0)
    · obtain ⟨c1, c2, c3⟩ := hc
      have : x * s * (2 * Real.pi) ^ (1 / 2 : ℝ) = 0 := by rcases c3 with rfl | rfl <;> simp
      simp only [truncnorm_pdfPy, PV.div_eq, PV.pow_eq, hs, hx, val_py, hneg, and_false, if_false, bind, Except.bind, isPy_arr, false_and,
        isPy_py, true_and, isPy_mul, c1, c2, c3, val_mul, hrt, mul_fin, this, if_true, and_self]
    · rw [if_neg hc]
      have k' : ¬ (True ∧ ((xx.isPy ∧ sig.isPy) ∧ True) ∧ x * s * (2 * Real.pi) ^ (1 / 2 : ℝ) = 0) := by
        rintro ⟨-, ⟨⟨c, c'⟩, -⟩, h⟩
        exact hc ⟨c, c', mul_eq_zero.1 ((mul_eq_zero.1 h).resolve_right hrt0)⟩
      simp only [truncnorm_pdfPy, PV.div_eq, PV.pow_eq, hs, hx, val_py, hneg, and_false, if_false, bind, Except.bind, isPy_arr, false_and,
        isPy_py, isPy_mul, val_mul, hrt, h2, mul_fin, F.fin.injEq, k', pure, Except.pure, val_mk', val_arr, val_sub, isPy_sub, isPy_jlog,
        val_jlog, if_true, truncnorm_pdf]

example : truncnorm_pdfPy (arr (fin 30)) (py (fin 35)) (py (fin 0)) (py (fin 5)) (py (fin 100)) = .error .zeroDivisionError := by
  rw [(C138_truncnorm_partial _ _ _ _ _ (s := 0) rfl).1]; simp
example : truncnorm_pdfPy (arr (fin 30)) (py (fin 35)) (py (fin 4)) (py (fin 5)) (py (fin 100)) =
    .ok (truncnorm_pdf (fin 30) (fin 35) (fin 4) (fin 5) (fin 100)) := by
  rw [(C138_truncnorm_partial _ _ _ _ _ (s := 4) rfl).1]; simp

/-- **C138 (partial).** The mass models on arrays of positive masses, with `0 < mmin < mmax`: the mass-ratio factor never raises (its lower
bound `mmin/m1` is an array), so they raise exactly when the primary slope is the Python number -1 and both mass limits are Python numbers, or
(with a peak) when the width of the peak is the Python number zero. -/
theorem C138_mass_models_partial {m1 : ℝ} (q : F) {alpha beta mmin mmax mpp sigpp lam : PV} {α β l h s : ℝ}
    (ha : alpha.val = fin α) (hb : beta.val = fin β) (hl : mmin.val = fin l) (hh : mmax.val = fin h) (hs : sigpp.val = fin s)
    (h0 : 0 < l) (hlh : l < h) (hm1 : l < m1) :
    powerlaw_primary_ratio_pdfPy (fin m1) q alpha beta mmin mmax =
      (if alpha.isPy ∧ mmin.isPy ∧ mmax.isPy ∧ α = -1 then .error .zeroDivisionError
       else .ok (powerlaw_primary_ratio_pdf (fin m1) q (fin α) (fin β) (fin l) (fin h))) ∧
    plpeak_primary_ratio_pdfPy (fin m1) q alpha beta mmin mmax mpp sigpp lam =
      (if (alpha.isPy ∧ mmin.isPy ∧ mmax.isPy ∧ α = -1) ∨ (sigpp.isPy ∧ s = 0) then .error .zeroDivisionError
       else .ok (plpeak_primary_ratio_pdf (fin m1) q (fin α) (fin β) (fin l) (fin h) mpp.val (fin s) lam.val)) := by
  have hm0 : 0 < m1 := h0.trans hm1
  have hd : PV.div mmin (arr (fin m1)) = .ok (arr (fin (l / m1))) := by
    rw [PV.div_eq]; simp [hl, PV.mk', hm0.ne', HDiv.hDiv, Div.div, F.div]
  have hq : powerlaw_pdfPy q beta (arr (fin (l / m1))) (py 1) =
      .ok (powerlaw_pdf q (fin β) (fin l / fin m1) 1) := by
    rw [C138_powerlaw_partial q 0 hb rfl (h := 1) rfl (by positivity) (by rw [div_lt_one hm0]; exact hm1), if_neg (by simp)]
    simp [HDiv.hDiv, Div.div, F.div, hm0.ne']
  constructor
  · simp only [powerlaw_primary_ratio_pdfPy, hd, hq, bind, Except.bind, C138_powerlaw_partial _ _ ha hl hh h0 hlh]
    split_ifs
    · rfl
    · rfl
  · simp only [plpeak_primary_ratio_pdfPy, plpeak_primary_pdfPy, hd, hq, bind, Except.bind, C138_powerlaw_partial _ _ ha hl hh h0 hlh,
      (C138_truncnorm_partial (arr (fin m1)) mpp sigpp mmin mmax hs).1, hl, hh]
    by_cases c1 : alpha.isPy ∧ mmin.isPy ∧ mmax.isPy ∧ α = -1
    · simp [c1]
    · by_cases c2 : sigpp.isPy ∧ s = 0
      · simp [c1, c2]
      · simp only [c1, c2, if_false, or_self, pure, Except.pure]
        rfl

example : powerlaw_primary_ratio_pdfPy (fin 20) (fin 0.5) (py (fin (-1))) (py (fin 2)) (py (fin 5)) (py (fin 100)) =
    .error .zeroDivisionError := by
  rw [(C138_mass_models_partial (fin 0.5) (mpp := py (fin 0)) (sigpp := py (fin 1)) (lam := py (fin 0)) rfl rfl rfl rfl rfl (by norm_num)
    (by norm_num) (by norm_num)).1]; simp
/-- a mass-ratio slope of -1 is harmless -/
example : ∃ v, powerlaw_primary_ratio_pdfPy (fin 20) (fin 0.5) (py (fin (-2))) (py (fin (-1))) (py (fin 5)) (py (fin 100)) = .ok v := by
  rw [(C138_mass_models_partial (fin 0.5) (mpp := py (fin 0)) (sigpp := py (fin 1)) (lam := py (fin 0)) rfl rfl rfl rfl rfl (by norm_num)
    (by norm_num) (by norm_num)).1, if_neg (by rintro ⟨-, -, -, h⟩; norm_num at h)]
  exact ⟨_, rfl⟩

/-- **C138 (partial).** The isotropic-plus-aligned tilt mixture raises exactly when its width is the Python number zero. -/
theorem C138_tilt_partial (ct : F) (xi : PV) {sigma : PV} {s : ℝ} (hs : sigma.val = fin s) :
    mixture_isoalign_spin_tiltPy ct xi sigma = if sigma.isPy ∧ s = 0 then .error .zeroDivisionError
      else .ok (mixture_isoalign_spin_tilt ct xi.val (fin s)) := by
  simp only [mixture_isoalign_spin_tiltPy, (C138_truncnorm_partial (arr ct) (py 1) sigma (py (-1)) (py 1) hs).1, bind, Except.bind]
  by_cases hc : sigma.isPy ∧ s = 0
  · simp [hc]
  · rw [if_neg hc, if_neg hc]; rfl

example : ∃ v, mixture_isoalign_spin_tiltPy (fin 0.3) (py (fin 0.5)) (py (fin 0.8)) = .ok v := by
  rw [C138_tilt_partial _ _ (s := 0.8) rfl, if_neg (by rintro ⟨-, h⟩; norm_num at h)]; exact ⟨_, rfl⟩

/-! ### the `Powerlaw` distribution -/

/-- **C138 (partial).** `Powerlaw` with `0 < minimum < maximum`: `log_prob` raises exactly when all three parameters are Python numbers and
the slope is -1; `cdf` (at a positive value) never raises; `icdf` and `sample` raise exactly when the slope is the Python number -1.
Otherwise all of them return the value of the array model. -/
theorem C138_powerlaw_dist_partial {d : PLDist} {α l h : ℝ} (ha : d.alpha.val = fin α) (hl : d.minimum.val = fin l)
    (hh : d.maximum.val = fin h) (h0 : 0 < l) (hlh : l < h) :
    (∀ value, d.log_prob value = if d.alpha.isPy ∧ d.minimum.isPy ∧ d.maximum.isPy ∧ α = -1 then .error .zeroDivisionError
      else .ok (pl_log_prob (fin α) (fin l) (fin h) value.val)) ∧
    (∀ value {x : ℝ}, value.val = fin x → 0 < x → d.cdf value = .ok (pl_cdf (fin α) (fin l) (fin h) (fin x))) ∧
    (∀ q {u : ℝ}, q.val = fin u → 0 ≤ u → u ≤ 1 → d.icdf q = if d.alpha.isPy ∧ α = -1 then .error .zeroDivisionError
      else .ok (pl_icdf (fin α) (fin l) (fin h) (fin u))) ∧
    (∀ {u : ℝ}, 0 ≤ u → u ≤ 1 → d.sample (fin u) = if d.alpha.isPy ∧ α = -1 then .error .zeroDivisionError
      else .ok (pl_icdf (fin α) (fin l) (fin h) (fin u))) := by
  have hh0 : 0 < h := h0.trans hlh
  have e1 : ¬ (fin h = fin 0) := by simp [hh0.ne']
  have e2 : ¬ (fin l = fin 0) := by simp [h0.ne']
  have key : ∀ q : PV, ∀ {u : ℝ}, q.val = fin u → 0 ≤ u → u ≤ 1 → d.icdf q = if d.alpha.isPy ∧ α = -1 then .error .zeroDivisionError
      else .ok (pl_icdf (fin α) (fin l) (fin h) (fin u)) := by
    intro q u hq hu hu1
    by_cases hc : d.alpha.isPy ∧ α = -1
    · obtain ⟨c, rfl⟩ := hc
      simp [PLDist.icdf, PV.div_eq, PV.pow_eq, ha, hl, hh, e1, e2, c, bind, Except.bind]
    · rw [if_neg hc]
      have k1 : ¬ (d.alpha.isPy ∧ 1 + α = 0) := by rintro ⟨c, h⟩; exact hc ⟨c, by linarith⟩
      have hb : l ^ (1 + α) + u * (h ^ (1 + α) - l ^ (1 + α)) ≠ 0 := by
        have p1 := Real.rpow_pos_of_pos h0 (1 + α)
        have p2 := Real.rpow_pos_of_pos hh0 (1 + α)
        have : 0 < (1 - u) * l ^ (1 + α) + u * h ^ (1 + α) := by
          rcases hu.eq_or_lt with rfl | hu'
          · simpa using p1
          · have := mul_pos hu' p2
            have := mul_nonneg (sub_nonneg.2 hu1) p1.le
            linarith
        intro hz; linarith
      simp [PLDist.icdf, PV.div_eq, PV.pow_eq, ha, hl, hh, hq, k1, bind, Except.bind, hh0.ne', h0.ne', powFin_pos' hh0, powFin_pos' h0, hb,
        pure, Except.pure, pl_icdf]
  refine ⟨fun value => ?_, fun value x hv hx => ?_, key, fun {u} hu hu1 => key (arr (fin u)) rfl hu hu1⟩
  · simp only [PLDist.log_prob, PV.div_eq, PV.pow_eq, ha, hl, hh, val_add, val_py, e1, e2, and_false, false_and, if_false, one_def, add_fin,
      powFin_pos' hh0, powFin_pos' h0, val_sub, val_mk', sub_fin, isPy_sub, isPy_mk', isPy_add, isPy_py, true_and,
      F.fin.injEq, rpow_eq_rpow_iff h0 hlh, bind, Except.bind, pure, Except.pure]
    by_cases hc : d.alpha.isPy ∧ d.minimum.isPy ∧ d.maximum.isPy ∧ α = -1
    · obtain ⟨c1, c2, c3, rfl⟩ := hc
      simp [c1, c2, c3]
    · rw [if_neg hc, if_neg (by rintro ⟨c1, ⟨⟨c2, -⟩, c3, -⟩, c4⟩; exact hc ⟨c1, c3, c2, by linarith⟩)]
      simp [pl_log_prob, powFin_pos' hh0, powFin_pos' h0]
  · have e3 : ¬ (fin x = fin 0) := by simp [hx.ne']
    simp [PLDist.cdf, PV.div_eq, PV.pow_eq, ha, hl, hh, hv, hh0.ne', h0.ne', hx.ne', bind, Except.bind, pure, Except.pure, pl_cdf]

example : (PLDist.make false (py (fin (-1))) (py (fin 5)) (py (fin 100))).log_prob (arr (fin 10)) = .error .zeroDivisionError := by
  rw [(C138_powerlaw_dist_partial (α := -1) (l := 5) (h := 100) rfl rfl rfl (by norm_num) (by norm_num)).1]
  simp [PLDist.make]
example : (PLDist.make false (arr (fin (-1))) (py (fin 5)) (py (fin 100))).log_prob (arr (fin 10)) =
    .ok (pl_log_prob (fin (-1)) (fin 5) (fin 100) (fin 10)) := by
  rw [(C138_powerlaw_dist_partial (α := -1) (l := 5) (h := 100) rfl rfl rfl (by norm_num) (by norm_num)).1]
  simp [PLDist.make]

/-- **C138 is false of the code.** With the default lower end `minimum=0.0` (and the default or any other Python number as upper end) and a
scalar slope, Python number or not, every method of `Powerlaw` raises `ZeroDivisionError`, at every value: the distribution cannot be used
with its default arguments. -/
theorem C138_default_minimum_fails (alpha value : PV) (h u : F) :
    (PLDist.make false alpha (maximum := py h)).log_prob value = .error .zeroDivisionError ∧
    (PLDist.make false alpha (maximum := py h)).cdf value = .error .zeroDivisionError ∧
    (PLDist.make false alpha (maximum := py h)).icdf value = .error .zeroDivisionError ∧
    (PLDist.make false alpha (maximum := py h)).sample u = .error .zeroDivisionError := by
  have hd : PV.div (py h) (py 0) = .error .zeroDivisionError := by simp [PV.div]
  have hb : ∀ {β : Type} (m : Except PyErr PV) (f : PV → Except PyErr β), (∀ v, f v = .error .zeroDivisionError) →
      (m = .error .zeroDivisionError ∨ ∃ v, m = .ok v) → (m >>= f) = .error .zeroDivisionError := by
    rintro β m f hf (rfl | ⟨v, rfl⟩)
    · rfl
    · exact hf v
  have hdiv : ∀ a b, PV.div a b = .error .zeroDivisionError ∨ ∃ v, PV.div a b = .ok v := by
    intro a b; rw [PV.div_eq]; split_ifs <;> simp
  have hpow : ∀ a b, PV.pow a b = .error .zeroDivisionError ∨ ∃ v, PV.pow a b = .ok v := by
    intro a b; rw [PV.pow_eq]; split_ifs <;> simp
  have key : ∀ q, (PLDist.make false alpha (maximum := py h)).icdf q = .error .zeroDivisionError := by
    intro q
    simp only [PLDist.icdf, PLDist.make, Bool.false_eq_true, if_false, hd]
    refine hb _ _ (fun _ => ?_) (hpow _ _)
    refine hb _ _ (fun _ => ?_) (hpow _ _)
    refine hb _ _ (fun _ => ?_) (hpow _ _)
    refine hb _ _ (fun _ => ?_) (hdiv _ _)
    refine hb _ _ (fun _ => ?_) (hpow _ _)
    rfl
  refine ⟨?_, ?_, key _, key _⟩
  · simp only [PLDist.log_prob, PLDist.make, Bool.false_eq_true, if_false, hd]
    refine hb _ _ (fun _ => ?_) (hpow _ _)
    refine hb _ _ (fun _ => ?_) (hpow _ _)
    refine hb _ _ (fun _ => ?_) (hdiv _ _)
    rfl
  · simp only [PLDist.cdf, PLDist.make, Bool.false_eq_true, if_false, hd]
    refine hb _ _ (fun _ => ?_) (hpow _ _)
    refine hb _ _ (fun _ => ?_) (hpow _ _)
    refine hb _ _ (fun _ => ?_) (hpow _ _)
    refine hb _ _ (fun _ => ?_) (hpow _ _)
    refine hb _ _ (fun _ => ?_) (hdiv _ _)
    refine hb _ _ (fun _ => ?_) (hdiv _ _)
    rfl

/-- **C138 (partial).** With a slope that has at least one axis the parameters are arrays, and no method raises, whatever the parameters
(default lower end and slope -1 included). -/
theorem C138_batched_partial (alpha minimum maximum value : PV) (u : F) :
    let d := PLDist.make true alpha minimum maximum
    d.log_prob value = .ok (pl_log_prob alpha.val minimum.val maximum.val value.val) ∧
    d.cdf value = .ok (pl_cdf alpha.val minimum.val maximum.val value.val) ∧
    d.icdf value = .ok (pl_icdf alpha.val minimum.val maximum.val value.val) ∧
    d.sample u = .ok (pl_icdf alpha.val minimum.val maximum.val u) := by
  refine ⟨?_, ?_, ?_, ?_⟩ <;>
  simp [PLDist.make, PLDist.log_prob, PLDist.cdf, PLDist.icdf, PLDist.sample, PV.div_eq, PV.pow_eq, bind, Except.bind, pure, Except.pure,
    pl_log_prob, pl_cdf, pl_icdf] <;> congr

example : (PLDist.make true (py (fin 2))).log_prob (arr (fin 0.5)) = .ok (pl_log_prob (fin 2) (fin 0) (fin 1) (fin 0.5)) :=
  (C138_batched_partial _ _ _ _ 0).1

end GW
end
