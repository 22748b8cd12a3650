import Verif.Props.RoundingEstimators

/-! # Property C133: the log-likelihood in rounded arithmetic -/

open Finset
noncomputable section
open Classical
namespace GW
open F

variable {f : Arith} {κ : ℝ}

/-! ### without rounding the model is that of `Verif.Model.Analysis` -/

theorem exact_r (a : F) : Arith.exact.r a = a := by cases a <;> rfl

theorem exact_sum {n : ℕ} (a : Fin n → F) (t : RTree n) (ht : t.Covers) : Arith.exact.sum a t = ∑ i, a i := by
  have h : ∀ t : RTree n, Arith.exact.sum a t = (t.leaves.map a).sum := by
    intro t
    induction t with
    | leaf i => simp only [Arith.sum, RTree.leaves, List.map_cons, List.map_nil, List.sum_singleton]
    | node l r hl hr => rw [Arith.sum, exact_r, hl, hr]; simp [RTree.leaves]
  rw [h, (ht.map a).sum_eq, ← List.sum_ofFn, List.ofFn_eq_map]

theorem exact_lse {n : ℕ} (a : Fin n → F) (t : RTree n) (ht : t.Covers) : Arith.exact.logsumexp t a = logsumexp a := by
  unfold Arith.logsumexp logsumexp
  simp only [exact_sum _ t ht, exact_r]
  rfl

/-- C133 (no rounding).  When nothing is rounded, the value computed in any order is the one `hierarchical_likelihood` contributes. -/
theorem C133_exact {E N M : ℕ} (o : Orders E N M) (ho : o.Covers) (fl : Flags) (pe : Fin E → Fin N → F) (inj : Fin M → F) (n Nobs : ℕ) (hN : 0 < N)
    (Tobs : F) (hv : Option F) (unscaled : F) (hfl : fl.ok) (hhv : fl.reconstruct_rate = true → hv ≠ none) :
    factors (hierarchical_likelihood fl (.single pe) inj n Nobs Tobs hv unscaled none).1 = [logLikelihoodR .exact o fl pe inj n Nobs] := by
  rw [(hl_factors_samples fl (.single pe) inj n Nobs Tobs hv unscaled none hfl hhv).1]
  refine congrArg (fun x => [x]) ?_
  have hNr : (N:ℝ) ≠ 0 := by exact_mod_cast hN.ne'
  have hrow : ∀ e, perEventRowR .exact (o.pe e) (o.pe2 e) (pe e) fl.log = perEventRow (pe e) fl.log := by
    intro e
    unfold perEventRowR perEventRow
    have h1 : (1:F) / fin N = fin (1 / N) := by rw [one_def, div_fin hNr]
    simp only [exact_sum _ _ (ho.pe e), exact_sum _ _ (ho.pe2 e), exact_lse _ _ (ho.pe e), exact_lse _ _ (ho.pe2 e), exact_r, h1]
    rfl
  have hinj : detectionEfficiencyR .exact o.inj o.inj2 inj n fl.log = detection_efficiency inj n fl.log := by
    unfold detectionEfficiencyR detection_efficiency
    have h1 : fin ((n:ℝ) ^ 2) = sq (fin n) := by rw [sq_fin, pow_two]
    simp only [exact_sum _ _ ho.inj, exact_sum _ _ ho.inj2, exact_lse _ _ ho.inj, exact_r, h1]
    rfl
  unfold logLikelihoodR likelihoodValue
  simp only [hrow, hinj, exact_sum _ _ ho.bf, exact_sum _ _ ho.var, exact_r, PEWeights.array, per_event_log_bayes_factors, neffCutR, neffCut, guardedLogLR, guardedLogL,
    selectionFactorR, selectionFactor]
  rfl

/-! ### accuracy -/

theorem Within.abs_sub_le {ε a b : ℝ} (h0 : 0 ≤ ε) (h1 : ε ≤ 1) (ha : 0 ≤ a) (h : Within ε a b) : |b - a| ≤ 2 * ε * a := by
  have e1 := Real.abs_exp_sub_one_le (x := ε) (by rwa [abs_of_nonneg h0])
  have e2 := Real.abs_exp_sub_one_le (x := -ε) (by rwa [abs_neg, abs_of_nonneg h0])
  rw [abs_of_nonneg h0] at e1
  rw [abs_neg, abs_of_nonneg h0] at e2
  rw [abs_le] at e1 e2 ⊢
  constructor
  · nlinarith [h.1]
  · nlinarith [h.2]

/-- the reported variance of one estimate, from its effective number -/
theorem var_est (C : f.Contract κ) {D : ℕ} {T ρ y c c' ε : ℝ} (hT : Budget κ D T) (hρ : Rg 25 ρ) (hε0 : 0 ≤ ε) (hε : ε ≤ 7 / 10) (hy : |y - -Real.log ρ| ≤ ε) (hc : 0 ≤ c) (hc1 : c ≤ 1) (wc : Within (4 * κ) c c') :
    ∃ z, f.r (f.r (1 / f.exp (fin y)) - fin c') = fin z ∧ |z - (ρ - c)| ≤ (2 * ε + 30 * T) * (ρ + c) := by
  obtain ⟨q0, hTe, hT1, hT0⟩ := hT.q C.pos
  have κ0 := C.pos
  have hl := hρ.log
  norm_num at hl
  have hy80 : |y| ≤ 80 := by
    have : y = (y - -Real.log ρ) + -Real.log ρ := by ring
    rw [this]; refine (abs_add_le _ _).trans ?_; rw [abs_neg]; linarith
  obtain ⟨x, hx, wx⟩ := C.expA hy80 hy
  rw [← Real.log_inv, Real.exp_log (inv_pos.2 hρ.pos)] at wx
  have hr : (1:ℝ) / ρ⁻¹ = ρ := by rw [one_div, inv_inv]
  obtain ⟨z1, hz1, wz1⟩ := C.divW zero_lt_one (inv_pos.2 hρ.pos) (by rw [hr]; exact hρ) (by norm_num) (ε := 0) (by linarith) (Within.refl' le_rfl zero_le_one) wx
  rw [hr] at wz1
  have a1 := (wz1.mono (δ := ε + 5 * T) (by linarith) hρ.pos.le).abs_sub_le (by linarith) (by linarith) hρ.pos.le
  have a2 := wc.abs_sub_le (by linarith) (by linarith) hc
  have hρ0 := hρ.pos
  have hρ1 : ρ ≤ 2 ^ 25 := hρ.2
  have a3 : |z1 - c' - (ρ - c)| ≤ (2 * ε + 11 * T) * (ρ + c) := by
    rw [show z1 - c' - (ρ - c) = (z1 - ρ) - (c' - c) by ring]
    refine (abs_sub _ _).trans ((add_le_add a1 a2).trans ?_)
    nlinarith
  have a4 : |z1 - c'| ≤ 3 * (ρ + c) := by
    have : z1 - c' = (z1 - c' - (ρ - c)) + (ρ - c) := by ring
    rw [this]
    refine (abs_add_le _ _).trans ?_
    have : |ρ - c| ≤ ρ + c := by rw [abs_le]; constructor <;> linarith
    nlinarith
  have a5 : ∃ z, f.rd (z1 - c') = fin z ∧ |z - (z1 - c')| ≤ κ * (4 * (ρ + c)) := by
    by_cases hlo : flLo ≤ |z1 - c'|
    · obtain ⟨z, hz, ez⟩ := C.rd_norm (z1 - c') hlo (a4.trans (by unfold flHi; norm_num at hρ1 ⊢; linarith))
      refine ⟨z, hz, ez.trans ?_⟩
      exact mul_le_mul_of_nonneg_left (by linarith) κ0.le
    · obtain ⟨z, hz, ez⟩ := C.rd_sub (z1 - c') (not_le.1 hlo)
      refine ⟨z, hz, ez.trans ?_⟩
      have h1 : flLo ≤ 2⁻¹ ^ 50 * 2⁻¹ ^ 25 := by unfold flLo; norm_num
      have h2 : (2⁻¹:ℝ) ^ 50 * 2⁻¹ ^ 25 ≤ κ * ρ := mul_le_mul C.tiny hρ.1 (by positivity) κ0.le
      nlinarith
  obtain ⟨z, hz, ez⟩ := a5
  refine ⟨z, ?_, ?_⟩
  · rw [hx, one_def, hz1, sub_fin, Arith.r_fin, hz]
  · rw [show z - (ρ - c) = (z - (z1 - c')) + (z1 - c' - (ρ - c)) by ring]
    refine (abs_add_le _ _).trans ((add_le_add ez a3).trans ?_)
    have hκT : κ ≤ T := by linarith
    have := mul_le_mul_of_nonneg_right hκT (show 0 ≤ 4 * (ρ + c) by linarith)
    nlinarith

/-- the sizes and weights for which the bound is stated: the weights are not negative, the largest weight of each event is between `exp (-K)` and `exp K`, and the largest weight of the found
injections between `exp (-13)` and `exp 13`; `K` may be large when log weights are used -/
structure InRange {E N M : ℕ} (K : ℝ) (lg : Bool) (w : Fin E → Fin N → ℝ) (v : Fin M → ℝ) (n Nobs : ℕ) : Prop where
  events : 0 < E ∧ E ≤ 2 ^ 20
  obs : 1 ≤ Nobs ∧ Nobs ≤ 2 ^ 20
  samples : N ≤ 2 ^ 24
  found : M ≤ 2 ^ 24 ∧ 2 * M ≤ n
  injections : n ≤ 2 ^ 27
  pe : ∀ e, Peak K (w e)
  linear : lg = false → K ≤ 13
  inj : Peak 13 v

theorem Arith.Contract.K_big (C : f.Contract κ) {K T : ℝ} (hK0 : 0 ≤ K) (hκT : κ ≤ T) (hK : K * T ≤ 1 / 128) : K ≤ 2 ^ 50 := by
  have h1 : 2⁻¹ ^ 50 * K ≤ κ * K := mul_le_mul_of_nonneg_right C.tiny hK0
  have h2 := mul_le_mul_of_nonneg_right hκT hK0
  norm_num at h1 ⊢; linarith

theorem mu_log {M n : ℕ} (hM : M ≤ 2 ^ 24) (hn1 : 1 ≤ n) (hn : n ≤ 2 ^ 27) {w : Fin M → ℝ} (hw : Peak 13 w) : |Real.log ((∑ i, w i) / n)| ≤ 33 := by
  have hn0 : (0:ℝ) < n := by exact_mod_cast hn1
  have h := hw.sum_Rg hM le_rfl
  have : Rg 47 ((∑ i, w i) / n) := by
    constructor
    · rw [le_div_iff₀ hn0]
      refine le_trans (mul_le_mul_of_nonneg_left (Rg.nat hn1 hn).2 (by positivity)) (le_trans ?_ h.1)
      norm_num
    · rw [div_le_iff₀ hn0]
      refine h.2.trans ?_
      have : (1:ℝ) ≤ n := by exact_mod_cast hn1
      norm_num; linarith
  have := this.log
  norm_num at this ⊢; linarith

theorem relVar_Rg {M n : ℕ} (hM : M ≤ 2 ^ 24) (hMn : 2 * M ≤ n) {w : Fin M → ℝ} (hw : ∀ i, 0 ≤ w i) (hp : ∃ i, 0 < w i) : Rg 25 (relVar w n) ∧ relVar w n ≤ 1 := by
  obtain ⟨hk1, hk2, hk3⟩ := relVar_kish hMn hw hp
  have h := (kish_Rg hM hw hp).inv
  rw [← one_div] at h
  have h1 : 1 / kish w ≤ 1 := by
    have := (kish_bounds w hw hp).1
    rw [div_le_one (by linarith)]; exact this
  refine ⟨⟨?_, by linarith [show (1:ℝ) ≤ 2 ^ 25 by norm_num]⟩, hk2.trans h1⟩
  have : (2⁻¹:ℝ) ^ 25 = 2⁻¹ ^ 24 / 2 := by norm_num
  rw [this]; linarith [h.1]

/-- the sum of the log Bayes factors -/
theorem bf_est (C : f.Contract κ) {E D : ℕ} {T K : ℝ} (hT : Budget κ D T) (hE : 0 < E) (hE' : E ≤ 2 ^ 20) (hK0 : 0 ≤ K) (hK : K * T ≤ 1 / 128) {x X : Fin E → ℝ}
    (hX : ∀ e, |X e| ≤ K + 16.8) (hx : ∀ e, |x e - X e| ≤ (240 + 2 * K) * T)
    {a : Fin E → F} (ha : ∀ e, a e = fin (x e)) {t : RTree E} (ht : t.Covers) (hD : t.depth ≤ D) :
    ∃ s, f.sum a t = fin s ∧ |s - ∑ e, X e| ≤ (280 + 4 * K) * T * E ∧ |∑ e, X e| ≤ (K + 16.8) * E := by
  obtain ⟨q0, hTe, hT1, hT0⟩ := hT.q C.pos
  have κ0 := C.pos
  have hEr : (1:ℝ) ≤ E := by exact_mod_cast hE
  have hEr' : (E:ℝ) ≤ 1048576 := by exact_mod_cast hE'
  have hKb := C.K_big hK0 (show κ ≤ T by linarith) hK
  have hB : ∀ e, |x e| + 1 ≤ K + 18 := by
    intro e
    have : x e = (x e - X e) + X e := by ring
    have h1 : |x e| ≤ |x e - X e| + |X e| := by conv_lhs => rw [this]
                                                exact abs_add_le _ _
    have := hX e
    have := hx e
    norm_num at *
    linarith
  obtain ⟨s, hs, es, _⟩ := C.sum_abs ha hB t hD (by linarith) (by
    rw [ht.length]; unfold flHi
    have : (E:ℝ) * (K + 18) ≤ 1048576 * (2 ^ 50 + 18) := mul_le_mul hEr' (by linarith) (by linarith) (by norm_num)
    norm_num at this ⊢; linarith)
  rw [ht.length, ht.total] at es
  refine ⟨s, hs, ?_, ?_⟩
  · have h1 : |∑ e, x e - ∑ e, X e| ≤ (240 + 2 * K) * T * E := by
      rw [← Finset.sum_sub_distrib]
      refine (Finset.abs_sum_le_sum_abs _ _).trans ((Finset.sum_le_sum fun e _ => hx e).trans ?_)
      simp; linarith
    rw [show s - ∑ e, X e = (s - ∑ e, x e) + (∑ e, x e - ∑ e, X e) by ring]
    refine (abs_add_le _ _).trans ((add_le_add es h1).trans ?_)
    have h2 : κ * D * (E * (K + 18)) ≤ T * (E * (K + 18)) := mul_le_mul_of_nonneg_right (by linarith) (by positivity)
    have h3 : 0 ≤ T * E := by positivity
    linarith
  · refine (Finset.abs_sum_le_sum_abs _ _).trans ((Finset.sum_le_sum fun e _ => hX e).trans ?_)
    simp; linarith

/-- the selection term when the cut does not fire -/
theorem sel_est (C : f.Contract κ) {D : ℕ} {T : ℝ} (hT : Budget κ D T) (fl : Flags) {Nobs : ℕ} (hN1 : 1 ≤ Nobs) (hN2 : Nobs ≤ 2 ^ 20) {l y lm ρ : ℝ} (hlm : |lm| ≤ 33)
    (hl : |l - lm| ≤ 240 * T) (hρ : Rg 25 ρ) (hρ1 : ρ ≤ 1) (hy : |y - -Real.log ρ| ≤ 2800 * T) (hcut : fl.min_neff_cut = true → 4 * Nobs * ρ * Real.exp (2900 * T) ≤ 1) :
    ∃ s, selectionFactorR f fl Nobs (fin l) (fin y) = fin s ∧
      |s - (-Nobs * lm + (if fl.marginalize_selection then Nobs * (3 + Nobs) / 2 * ρ else 0))| ≤ 310 * T * Nobs +
        5620 * T * (if fl.marginalize_selection then Nobs * (3 + Nobs) / 2 * ρ else 0) := by
  obtain ⟨q0, hTe, hT1, hT0⟩ := hT.q C.pos
  have κ0 := C.pos
  have hκT : κ ≤ T := by linarith
  have hNr : (1:ℝ) ≤ Nobs := by exact_mod_cast hN1
  have hNr' : (Nobs:ℝ) ≤ 1048576 := by exact_mod_cast hN2
  have hρ0 := hρ.pos
  have hρl := hρ.log
  norm_num at hρl
  have hy80 : |y| ≤ 80 := by
    have : y = (y - -Real.log ρ) + -Real.log ρ := by ring
    rw [this]; refine (abs_add_le _ _).trans ?_; rw [abs_neg]; linarith
  -- the corrected logarithm
  obtain ⟨tt, htt, tt0, tt1⟩ : ∃ tt : ℝ, tt = (if fl.marginalize_selection then (3 + (Nobs:ℝ)) / 2 * ρ else 0) ∧ 0 ≤ tt ∧ tt ≤ 2 ^ 21 := by
    refine ⟨_, rfl, ?_, ?_⟩
    · split <;> positivity
    · split
      · have : (3 + (Nobs:ℝ)) / 2 * ρ ≤ (3 + (Nobs:ℝ)) / 2 * 1 := mul_le_mul_of_nonneg_left hρ1 (by positivity)
        norm_num; linarith
      · norm_num
  have h1 : ∃ l1, (if fl.marginalize_selection = true then f.r (fin l - f.r (f.rd (3 + Nobs) / f.r (2 * f.exp (fin y)))) else fin l) = fin l1 ∧
      |l1 - (lm - tt)| ≤ 275 * T + 5613 * T * tt := by
    cases hm : fl.marginalize_selection with
    | false =>
      simp only [hm, Bool.false_eq_true, if_false] at htt ⊢
      exact ⟨l, rfl, by rw [htt]; simp only [sub_zero, mul_zero, add_zero]; linarith⟩
    | true =>
      simp only [hm, if_true] at htt ⊢
      obtain ⟨x, hx, wx⟩ := C.expA hy80 hy
      rw [← Real.log_inv, Real.exp_log (inv_pos.2 hρ0)] at wx
      have r2 : Rg 26 (ρ⁻¹ * 2) := by
        have := hρ.inv.mul (show Rg 1 (2:ℝ) from ⟨by norm_num, by norm_num⟩)
        exact this
      obtain ⟨p, hp, wp⟩ := C.rdW r2 (by norm_num) (by linarith) (wx.mul_right (show (0:ℝ) ≤ 2 by norm_num))
      have hnat : f.rd (3 + (Nobs:ℝ)) = fin (3 + Nobs) := by
        have := C.rd_nat (3 + Nobs) (by omega)
        push_cast at this; exact this
      have r3 : Rg 21 (3 + (Nobs:ℝ)) := by
        have := Rg.nat (n := 3 + Nobs) (m := 21) (by omega) (by omega)
        push_cast at this; exact this
      have e : (3 + (Nobs:ℝ)) / (ρ⁻¹ * 2) = tt := by rw [htt]; field_simp
      obtain ⟨q, hq, wq⟩ := C.divW r3.pos r2.pos (r3.div r2) (by norm_num) (ε := 0) (by linarith) (Within.refl' le_rfl r3.pos.le) wp
      rw [e] at wq
      have a1 := (wq.mono (δ := 2805 * T) (by linarith) tt0).abs_sub_le (by linarith) (by linarith) tt0
      have a2 : |l - q - (lm - tt)| ≤ 240 * T + 5610 * T * tt := by
        rw [show l - q - (lm - tt) = (l - lm) - (q - tt) by ring]
        refine (abs_sub _ _).trans ?_
        linarith
      have hK : |lm - tt| + (240 * T + 5610 * T * tt) ≤ 34 + 3 * tt := by
        have : |lm - tt| ≤ 33 + tt := (abs_sub _ _).trans (by rw [abs_of_nonneg tt0]; linarith)
        nlinarith
      obtain ⟨l1, hl1, el1⟩ := C.rdA hK (by norm_num at tt1 ⊢; linarith) a2
      refine ⟨l1, ?_, el1.trans ?_⟩
      · rw [hx, ofNat_def, mul_fin, Arith.r_fin, mul_comm, hp, hnat, hq, sub_fin, Arith.r_fin, hl1]
      · have : κ * (1 + (34 + 3 * tt)) ≤ T * (1 + (34 + 3 * tt)) := mul_le_mul_of_nonneg_right hκT (by linarith)
        nlinarith
  obtain ⟨l1, hl1, el1⟩ := h1
  -- the cut
  have h2 : fl.min_neff_cut = true → ge (fin y) (f.log (f.rd (4 * Nobs))) := by
    intro hc
    have h4 := hcut hc
    have hnat : f.rd (4 * (Nobs:ℝ)) = fin (4 * Nobs) := by
      have := C.rd_nat (4 * Nobs) (by omega)
      push_cast at this; exact this
    have r4 : Rg 22 (4 * (Nobs:ℝ)) := by
      have := Rg.nat (n := 4 * Nobs) (m := 22) (by omega) (by omega)
      push_cast at this; exact this
    obtain ⟨z, hz, ez⟩ := C.logW r4 (by norm_num) (ε := 0) zero_le_one (Within.refl' le_rfl r4.pos.le)
    rw [hnat, hz, ge_fin]
    norm_num at ez
    have h5 : Real.log (4 * Nobs) + Real.log ρ + 2900 * T ≤ 0 := by
      have := Real.log_le_log (mul_pos (mul_pos r4.pos hρ0) (Real.exp_pos _)) h4
      rwa [Real.log_mul (mul_pos r4.pos hρ0).ne' (Real.exp_pos _).ne', Real.log_mul r4.pos.ne' hρ0.ne', Real.log_exp, Real.log_one] at this
    rw [abs_le] at ez hy
    linarith [ez.2, hy.1]
  have h3 : ∀ b : F, (if fl.min_neff_cut = true then (if ge (fin y) (f.log (f.rd (4 * Nobs))) then b else pinf) else b) = b := by
    intro b
    by_cases hc : fl.min_neff_cut = true
    · rw [if_pos hc, if_pos (h2 hc)]
    · rw [if_neg hc]
  have hnat : f.rd Nobs = fin Nobs := C.rd_nat Nobs (by omega)
  have htt' : (if fl.marginalize_selection then (Nobs:ℝ) * (3 + Nobs) / 2 * ρ else 0) = Nobs * tt := by
    rw [htt]; split <;> ring
  rw [htt']
  have e4 : |-(Nobs:ℝ) * l1 - (-Nobs * lm + Nobs * tt)| ≤ Nobs * (275 * T + 5613 * T * tt) := by
    rw [show -(Nobs:ℝ) * l1 - (-Nobs * lm + Nobs * tt) = -(Nobs * (l1 - (lm - tt))) by ring, abs_neg, abs_mul, abs_of_pos (by linarith)]
    exact mul_le_mul_of_nonneg_left el1 (by linarith)
  have hK : |-(Nobs:ℝ) * lm + Nobs * tt| + Nobs * (275 * T + 5613 * T * tt) ≤ Nobs * (34 + 3 * tt) := by
    have h5 : |-(Nobs:ℝ) * lm + Nobs * tt| ≤ Nobs * (33 + tt) := by
      rw [show -(Nobs:ℝ) * lm + Nobs * tt = Nobs * (tt - lm) by ring, abs_mul, abs_of_pos (by linarith)]
      refine mul_le_mul_of_nonneg_left ?_ (by linarith)
      refine (abs_sub _ _).trans ?_
      rw [abs_of_nonneg tt0]; linarith
    rw [← sub_nonneg]
    have h6 : 0 ≤ (Nobs:ℝ) * ((34 + 3 * tt) - (33 + tt) - (275 * T + 5613 * T * tt)) := by
      refine mul_nonneg (by linarith) ?_
      nlinarith
    linarith
  have hK' : (Nobs:ℝ) * (34 + 3 * tt) ≤ 2 ^ 100 := by
    have : (Nobs:ℝ) * (34 + 3 * tt) ≤ 1048576 * (34 + 3 * 2 ^ 21) := mul_le_mul hNr' (by linarith) (by linarith) (by norm_num)
    refine this.trans (by norm_num)
  obtain ⟨s, hs, es⟩ := C.rdA hK hK' e4
  refine ⟨s, ?_, es.trans ?_⟩
  · unfold selectionFactorR
    simp only [hl1, h3, isinf_fin, if_false, hnat, neg_fin, mul_fin, Arith.r_fin]
    exact hs
  · have : κ * (1 + Nobs * (34 + 3 * tt)) ≤ T * (1 + Nobs * (34 + 3 * tt)) := mul_le_mul_of_nonneg_right hκT (by positivity)
    have h7 : 0 ≤ T * (Nobs * tt) := by positivity
    have h8 : T ≤ T * Nobs := by nlinarith
    nlinarith

/-- the per-event cut does not fire when every event has enough effective samples, up to rounding -/
theorem neffCutR_passes (C : f.Contract κ) {E D : ℕ} {T K : ℝ} (hT : Budget κ D T) (hK : K * T ≤ 1 / 128) (fl : Flags) {Nobs : ℕ} (hE : 0 < E) (hN : Nobs ≤ 2 ^ 20) {y k : Fin E → ℝ}
    (hk : ∀ e, Rg 24 (k e)) (hy : ∀ e, |y e - Real.log (k e)| ≤ (700 + 8 * K) * T)
    (hgood : fl.min_neff_cut = true → ∀ e, Nobs * Real.exp ((800 + 8 * K) * T) < k e) (L : F) :
    neffCutR f fl Nobs (fun e => fin (y e)) L = L := by
  obtain ⟨q0, hTe, hT1, hT0⟩ := hT.q C.pos
  have κ0 := C.pos
  unfold neffCutR
  cases hc : fl.min_neff_cut with
  | false => simp
  | true =>
    simp only [if_true, nanToNum_fin]
    obtain ⟨m, h1, _, e0, h3⟩ := minF_real y hE
    have rkl := (hk e0).log
    norm_num at rkl
    have hm : |m - Real.log (k e0)| ≤ (700 + 8 * K) * T := by rw [← h3]; exact hy e0
    have hm80 : |m| ≤ 80 := by
      have : m = (m - Real.log (k e0)) + Real.log (k e0) := by ring
      rw [this]; exact (abs_add_le _ _).trans (by linarith)
    obtain ⟨g, hg, wg⟩ := C.expA hm80 hm
    rw [Real.exp_log (hk e0).pos] at wg
    refine if_neg ?_
    have hnat : f.rd Nobs = fin Nobs := C.rd_nat Nobs (by omega)
    rw [show (minF fun e => fin (y e)) = fin m from h1, hg, hnat, le_fin, not_le]
    refine lt_of_lt_of_le ?_ (wg.mono (δ := (800 + 8 * K) * T) (by linarith) (hk e0).pos.le).1
    have := mul_lt_mul_of_pos_left (hgood hc e0) (Real.exp_pos (-((800 + 8 * K) * T)))
    rwa [mul_comm (Nobs:ℝ), ← mul_assoc, ← Real.exp_add, neg_add_cancel, Real.exp_zero, one_mul] at this

/-- the total variance, up to an error small against what it adds up -/
theorem totalVar_est (C : f.Contract κ) {E D : ℕ} {T ε : ℝ} (hT : Budget κ D T) (hε0 : 0 ≤ ε) (hε : ε ≤ 3) (hE : 0 < E) (hE' : E ≤ 2 ^ 20) {Nobs : ℕ} (hN1 : 1 ≤ Nobs) (hN2 : Nobs ≤ 2 ^ 20)
    {z g c : ℝ} (hg0 : 0 ≤ g) (hg : g ≤ 2) (hc : |c| ≤ g) (hz : |z - c| ≤ 5630 * T * g) {x X : Fin E → ℝ} (hX : ∀ e, |X e| ≤ 1) (hx : ∀ e, |x e - X e| ≤ ε)
    {a : Fin E → F} (ha : ∀ e, a e = fin (x e)) {t : RTree E} (ht : t.Covers) (hD : t.depth ≤ D) :
    ∃ s, f.r (f.r (f.rd ((Nobs : ℝ) ^ 2) * fin z) + f.sum a t) = fin s ∧ s ≤ (Nobs:ℝ) ^ 2 * c + ∑ e, X e + 12000 * T * ((Nobs:ℝ) ^ 2 * g) + (ε + 30 * T) * E := by
  obtain ⟨q0, hTe, hT1, hT0⟩ := hT.q C.pos
  have κ0 := C.pos
  have hκT : κ ≤ T := by linarith
  have hEr : (1:ℝ) ≤ E := by exact_mod_cast hE
  have hEr' : (E:ℝ) ≤ 1048576 := by exact_mod_cast hE'
  have hNr : (1:ℝ) ≤ Nobs := by exact_mod_cast hN1
  have hNr' : (Nobs:ℝ) ≤ 1048576 := by exact_mod_cast hN2
  have hN2r : (1:ℝ) ≤ (Nobs:ℝ) ^ 2 := one_le_pow₀ hNr
  have hN2' : (Nobs:ℝ) ^ 2 ≤ 1048576 ^ 2 := pow_le_pow_left₀ (by linarith) hNr' 2
  -- the sum over the events
  have hB : ∀ e, |x e| + 1 ≤ 6 := by
    intro e
    have : x e = (x e - X e) + X e := by ring
    have h1 : |x e| ≤ |x e - X e| + |X e| := by conv_lhs => rw [this]
                                                exact abs_add_le _ _
    linarith [hX e, hx e]
  obtain ⟨s1, hs1, es1, _⟩ := C.sum_abs ha hB t hD (by linarith) (by
    rw [ht.length]; unfold flHi; norm_num; linarith)
  rw [ht.length, ht.total] at es1
  have es : |s1 - ∑ e, X e| ≤ (ε + 12 * T) * E := by
    have h1 : |∑ e, x e - ∑ e, X e| ≤ ε * E := by
      rw [← Finset.sum_sub_distrib]
      refine (Finset.abs_sum_le_sum_abs _ _).trans ((Finset.sum_le_sum fun e _ => hx e).trans ?_)
      simp; linarith
    rw [show s1 - ∑ e, X e = (s1 - ∑ e, x e) + (∑ e, x e - ∑ e, X e) by ring]
    refine (abs_add_le _ _).trans ((add_le_add es1 h1).trans ?_)
    have : κ * D * E ≤ T * E := mul_le_mul_of_nonneg_right (by linarith) (by linarith)
    nlinarith
  have hXs : |∑ e, X e| ≤ E := by
    refine (Finset.abs_sum_le_sum_abs _ _).trans ((Finset.sum_le_sum fun e _ => hX e).trans ?_)
    simp
  -- the product
  have rN : Rg 40 ((Nobs:ℝ) ^ 2) := by
    have h := Rg.nat hN1 hN2
    rw [pow_two]; exact h.mul h
  obtain ⟨p, hp, wp⟩ := C.rdW rN (by norm_num) (ε := 0) zero_le_one (Within.refl' le_rfl rN.pos.le)
  have ap := wp.abs_sub_le (by linarith) (by linarith) rN.pos.le
  have hzabs : |z| ≤ 3 * g := by
    have : z = (z - c) + c := by ring
    rw [this]
    refine (abs_add_le _ _).trans ((add_le_add hz hc).trans ?_)
    nlinarith
  have e1 : |p * z - (Nobs:ℝ) ^ 2 * c| ≤ 5645 * T * ((Nobs:ℝ) ^ 2 * g) := by
    rw [show p * z - (Nobs:ℝ) ^ 2 * c = (p - (Nobs:ℝ) ^ 2) * z + (Nobs:ℝ) ^ 2 * (z - c) by ring]
    refine (abs_add_le _ _).trans ?_
    rw [abs_mul, abs_mul, abs_of_pos rN.pos]
    have h1 : |p - (Nobs:ℝ) ^ 2| * |z| ≤ 2 * (0 + 2 * κ) * (Nobs:ℝ) ^ 2 * (3 * g) := mul_le_mul ap hzabs (abs_nonneg _) (by positivity)
    have h2 : (Nobs:ℝ) ^ 2 * |z - c| ≤ (Nobs:ℝ) ^ 2 * (5630 * T * g) := mul_le_mul_of_nonneg_left hz rN.pos.le
    have h3 : κ * ((Nobs:ℝ) ^ 2 * g) ≤ T * ((Nobs:ℝ) ^ 2 * g) := mul_le_mul_of_nonneg_right hκT (by positivity)
    have h4 : 0 ≤ T * ((Nobs:ℝ) ^ 2 * g) := by positivity
    have h5 : 2 * (0 + 2 * κ) * (Nobs:ℝ) ^ 2 * (3 * g) = 12 * (κ * ((Nobs:ℝ) ^ 2 * g)) := by ring
    have h6 : (Nobs:ℝ) ^ 2 * (5630 * T * g) = 5630 * (T * ((Nobs:ℝ) ^ 2 * g)) := by ring
    rw [h5] at h1
    rw [h6] at h2
    have h7 : 5645 * T * ((Nobs:ℝ) ^ 2 * g) = 5645 * (T * ((Nobs:ℝ) ^ 2 * g)) := by ring
    rw [h7]
    linarith
  have hG0 : 0 ≤ (Nobs:ℝ) ^ 2 * g := by positivity
  have hG : (Nobs:ℝ) ^ 2 * g ≤ 1048576 ^ 2 * 2 := mul_le_mul hN2' hg hg0 (by norm_num)
  have hc1 : |(Nobs:ℝ) ^ 2 * c| ≤ (Nobs:ℝ) ^ 2 * g := by
    rw [abs_mul, abs_of_pos rN.pos]; exact mul_le_mul_of_nonneg_left hc rN.pos.le
  generalize (Nobs:ℝ) ^ 2 * g = G at *
  obtain ⟨v, hv, ev⟩ := C.rdA (K := 3 * G) (by nlinarith) (by norm_num at hG ⊢; linarith) e1
  have e2 : |v + s1 - ((Nobs:ℝ) ^ 2 * c + ∑ e, X e)| ≤ 5650 * T * G + κ + (ε + 12 * T) * E := by
    rw [show v + s1 - ((Nobs:ℝ) ^ 2 * c + ∑ e, X e) = (v - (Nobs:ℝ) ^ 2 * c) + (s1 - ∑ e, X e) by ring]
    refine (abs_add_le _ _).trans ((add_le_add ev es).trans ?_)
    have : κ * G ≤ T * G := mul_le_mul_of_nonneg_right hκT hG0
    nlinarith
  have hK : |(Nobs:ℝ) ^ 2 * c + ∑ e, X e| + (5650 * T * G + κ + (ε + 12 * T) * E) ≤ 4 * G + 6 * E := by
    have h3 : ε * E ≤ 3 * E := mul_le_mul_of_nonneg_right hε (by linarith)
    have := abs_add_le ((Nobs:ℝ) ^ 2 * c) (∑ e, X e)
    have h1 : T * G ≤ 1 / 4096 * G := mul_le_mul_of_nonneg_right hT1 hG0
    have h2 : T * E ≤ 1 / 4096 * E := mul_le_mul_of_nonneg_right hT1 (by linarith)
    linarith
  obtain ⟨s, hs, ess⟩ := C.rdA hK (by norm_num at hG ⊢; linarith) e2
  refine ⟨s, ?_, ?_⟩
  · rw [hp, mul_fin, Arith.r_fin, hv, hs1, add_fin, Arith.r_fin, hs]
  · have h1 := (abs_le.1 ess).2
    have h2 : κ * (1 + (4 * G + 6 * E)) ≤ T * (1 + (4 * G + 6 * E)) := mul_le_mul_of_nonneg_right hκT (by linarith)
    have h3 : T ≤ T * E := le_mul_of_one_le_right hT0.le hEr
    have h4 : 0 ≤ T * G := by positivity
    linarith

/-- **C133** (accuracy).  Let every operation be rounded to relative error `κ`, and let sums be evaluated in any order in which no entry goes through more than `D` additions.
For non-negative weights, the largest weight of every event between `exp (-K)` and `exp K` (`K ≤ 13`, or any `K` with `128 K (D + 1) κ ≤ 1` when log weights are used), the largest weight of the
found injections between `exp (-13)` and `exp 13`, at most `2²⁴` samples and found injections, at most half of the injections found, and cuts that are not met up to a margin,
`hierarchical_likelihood` computes its log-likelihood up to `(400 + 5 K) (D + 1) κ` per event and `400 (D + 1) κ` per unit of `Nobs` (plus `6000 (D + 1) κ` times the correction for the
selection uncertainty), whether it works with weights or with log weights, and whatever the flags.  Small weights may be arbitrarily small.  Partial: outside these ranges see C134. -/
theorem C133_accuracy_partial {E N M : ℕ} (C : f.Contract κ) {D : ℕ} {T K : ℝ} (hT : Budget κ D T) (hKT : K * T ≤ 1 / 128) (o : Orders E N M) (ho : o.Covers) (hoD : o.DepthLe D) (fl : Flags)
    (w : Fin E → Fin N → ℝ) (v : Fin M → ℝ) (n Nobs : ℕ) (hR : InRange K fl.log w v n Nobs) (Tobs : F) (hv : Option F) (unscaled : F) (hfl : fl.ok)
    (hhv : fl.reconstruct_rate = true → hv ≠ none)
    (hneff : fl.min_neff_cut = true → (∀ e, Nobs * Real.exp ((800 + 8 * K) * T) < kish (w e)) ∧ 4 * Nobs * relVar v n * Real.exp (2900 * T) ≤ 1)
    (hvar : fl.max_variance_cut = true → (Nobs : ℝ) ^ 2 * (relVar v n - 1 / n) + ∑ e, (1 / kish (w e) - 1 / N) +
      T * (12000 * ((Nobs : ℝ) ^ 2 * (relVar v n + 1 / n)) + (3000 + 40 * K) * E) ≤ 1) :
    ∃ L L' : ℝ, factors (hierarchical_likelihood fl (.single fun e i => encode fl.log (w e i)) (fun i => encode fl.log (v i)) n Nobs Tobs hv unscaled none).1 = [fin L] ∧
      logLikelihoodR f o fl (fun e i => encode fl.log (w e i)) (fun i => encode fl.log (v i)) n Nobs = fin L' ∧
      |L' - L| ≤ T * ((400 + 5 * K) * E + 400 * Nobs) + 6000 * T * (if fl.marginalize_selection then Nobs * (3 + Nobs) / 2 * relVar v n else 0) := by
  obtain ⟨q0, hTe, hT1, hT0⟩ := hT.q C.pos
  have κ0 := C.pos
  have hκT : κ ≤ T := by linarith
  have hw := hR.pe
  have hwp : ∀ e, ∃ i, 0 < w e i := fun e => (hw e).pos
  have hK0 : 0 ≤ K := (hw ⟨0, hR.events.1⟩).K_nonneg
  have hKb := C.K_big hK0 hκT hKT
  have hvm := hR.inj
  have hvp := hvm.pos
  have hM1 := card_pos_of hvp
  have hn1 : 1 ≤ n := by have := hR.found.2; omega
  have hn0 : (1:ℝ) ≤ n := by exact_mod_cast hn1
  have hN1 : ∀ e : Fin E, 1 ≤ N := fun e => card_pos_of (hwp e)
  have hNr : (1:ℝ) ≤ Nobs := by exact_mod_cast hR.obs.1
  have hNr' : (Nobs:ℝ) ≤ 1048576 := by exact_mod_cast hR.obs.2
  have hEr : (1:ℝ) ≤ E := by exact_mod_cast hR.events.1
  have hEr' : (E:ℝ) ≤ 1048576 := by exact_mod_cast hR.events.2
  obtain ⟨rρ, ρ1⟩ := relVar_Rg hR.found.1 hR.found.2 hvm.nonneg hvp
  have ρ0 := rρ.pos
  -- the exact value
  have hneff' : fl.min_neff_cut = true → (∀ e, (Nobs : ℝ) < kish (w e)) ∧ 4 * (Nobs : ℝ) * relVar v n ≤ 1 := by
    intro hc
    obtain ⟨h1, h2⟩ := hneff hc
    refine ⟨fun e => lt_of_le_of_lt (le_mul_of_one_le_right (by linarith) (Real.one_le_exp (by positivity))) (h1 e), ?_⟩
    exact (le_mul_of_one_le_right (by positivity) (Real.one_le_exp (by linarith))).trans h2
  have hvar' : fl.max_variance_cut = true → (Nobs : ℝ) ^ 2 * (relVar v n - 1 / n) + ∑ e, (1 / kish (w e) - 1 / N) ≤ 1 := by
    intro hc
    have h1 := hvar hc
    have : 0 ≤ T * (12000 * ((Nobs : ℝ) ^ 2 * (relVar v n + 1 / n)) + (3000 + 40 * K) * E) := by positivity
    linarith
  have hL := C47_value fl w v n Nobs Tobs hv unscaled none hfl hhv hR.events.1 hR.obs.1 (fun e => (hw e).nonneg) hwp hvm.nonneg hvp (by have := hR.found.2; omega) hneff' hvar'
  -- the estimates
  have hrow := fun e => row_est C hT hR.samples (hw e) hKT (ho.pe e) (ho.pe2 e) (hoD.pe e) (hoD.pe2 e) fl.log hR.linear
  choose x y hx hy ex ey using hrow
  obtain ⟨l, yi, hl, hyi, el, eyi⟩ := inj_est C hT hR.found.1 hR.injections hR.found.2 hvm le_rfl ho.inj ho.inj2 hoD.inj hoD.inj2 fl.log
  obtain ⟨b, hb, eb, bb⟩ := bf_est C hT hR.events.1 hR.events.2 hK0 hKT (fun e => (hw e).mean_log hR.samples) ex hx ho.bf hoD.bf
  have hmu := mu_log hR.found.1 hn1 hR.injections hvm
  obtain ⟨s, hs, es⟩ := sel_est C hT fl hR.obs.1 hR.obs.2 hmu el rρ ρ1 eyi fun hc => (hneff hc).2
  obtain ⟨tt, htt, tt0, tt1⟩ : ∃ tt : ℝ, tt = (if fl.marginalize_selection then (Nobs:ℝ) * (3 + Nobs) / 2 * relVar v n else 0) ∧ 0 ≤ tt ∧ tt ≤ 2 ^ 50 := by
    refine ⟨_, rfl, ?_, ?_⟩
    · split <;> positivity
    · split
      · have h1 : (Nobs:ℝ) * (3 + Nobs) / 2 * relVar v n ≤ (Nobs:ℝ) * (3 + Nobs) / 2 * 1 := mul_le_mul_of_nonneg_left ρ1 (by positivity)
        norm_num
        nlinarith
      · norm_num
  rw [← htt] at es hL ⊢
  have e1 : |s + b - (∑ e, Real.log (mean (w e)) - Nobs * Real.log ((∑ i, v i) / n) + tt)| ≤ (280 + 4 * K) * T * E + (310 * T * Nobs + 5620 * T * tt) := by
    rw [show s + b - (∑ e, Real.log (mean (w e)) - Nobs * Real.log ((∑ i, v i) / n) + tt) =
      (b - ∑ e, Real.log (mean (w e))) + (s - (-Nobs * Real.log ((∑ i, v i) / n) + tt)) by ring]
    exact (abs_add_le _ _).trans (add_le_add eb es)
  have hK : |∑ e, Real.log (mean (w e)) - Nobs * Real.log ((∑ i, v i) / n) + tt| + ((280 + 4 * K) * T * E + (310 * T * Nobs + 5620 * T * tt)) ≤ (18 + K) * E + 34 * Nobs + 3 * tt := by
    have h1 : |(Nobs:ℝ) * Real.log ((∑ i, v i) / n)| ≤ Nobs * 33 := by
      rw [abs_mul, abs_of_pos (by linarith)]; exact mul_le_mul_of_nonneg_left hmu (by linarith)
    have h2 : |∑ e, Real.log (mean (w e)) - Nobs * Real.log ((∑ i, v i) / n) + tt| ≤ (K + 16.8) * E + Nobs * 33 + tt := by
      refine (abs_add_le _ _).trans ?_
      rw [abs_of_nonneg tt0]
      have := abs_sub (∑ e, Real.log (mean (w e))) (Nobs * Real.log ((∑ i, v i) / n))
      linarith
    have h3 : T * E ≤ 1 / 4096 * E := mul_le_mul_of_nonneg_right hT1 (by linarith)
    have h4 : T * Nobs ≤ 1 / 4096 * Nobs := mul_le_mul_of_nonneg_right hT1 (by linarith)
    have h5 : T * tt ≤ 1 / 4096 * tt := mul_le_mul_of_nonneg_right hT1 tt0
    have h6 : K * T * E ≤ 1 / 128 * E := mul_le_mul_of_nonneg_right hKT (by linarith)
    norm_num at h2
    linarith
  obtain ⟨L', hL', eL'⟩ := C.rdA hK (by
    have : (18 + K) * (E:ℝ) ≤ (18 + 2 ^ 50) * 1048576 := mul_le_mul (by linarith) hEr' (by linarith) (by norm_num)
    norm_num at this tt1 ⊢; linarith) e1
  refine ⟨_, L', hL, ?_, ?_⟩
  · -- the cuts do not fire
    have hg : guardedLogLR f (fin s) (fin b) = fin L' := by
      unfold guardedLogLR
      rw [add_fin, Arith.r_fin, hL']; simp
    have hcut : neffCutR f fl Nobs (fun e => fin (y e)) (fin L') = fin L' :=
      neffCutR_passes C hT hKT fl hR.events.1 hR.obs.2 (fun e => kish_Rg hR.samples (hw e).nonneg (hwp e)) ey (fun hc => (hneff hc).1) (fin L')
    have hvc : varianceCut fl (f.r (f.r (f.rd ((Nobs : ℝ) ^ 2) * (detectionEfficiencyR f o.inj o.inj2 (fun i => encode fl.log (v i)) n fl.log).2.2) +
        f.sum (fun e => (perEventRowR f (o.pe e) (o.pe2 e) (fun i => encode fl.log (w e i)) fl.log).2.2) o.var)) (fin L') = fin L' := by
      unfold varianceCut
      cases hc : fl.max_variance_cut with
      | false => simp
      | true =>
        simp only [if_true]
        have rn := Rg.nat hn1 hR.injections
        obtain ⟨n', hn', wn'⟩ := C.rdW rn (by norm_num) (ε := 0) zero_le_one (Within.refl' le_rfl rn.pos.le)
        obtain ⟨c', hc', wc'⟩ := C.divW zero_lt_one rn.pos (show Rg 27 ((1:ℝ) / n) by rw [one_div]; exact rn.inv) (by norm_num) (ε := 0) (by linarith) (Within.refl' le_rfl zero_le_one) wn'
        have hc1 : (1:ℝ) / n ≤ 1 := by rw [div_le_one (by linarith)]; exact hn0
        obtain ⟨z, hz, ez⟩ := var_est C hT rρ (by linarith) (by linarith) eyi (by positivity) hc1 (wc'.mono (δ := 4 * κ) (by linarith) (by positivity))
        have hd : (detectionEfficiencyR f o.inj o.inj2 (fun i => encode fl.log (v i)) n fl.log).2.2 = fin z := by
          have : (detectionEfficiencyR f o.inj o.inj2 (fun i => encode fl.log (v i)) n fl.log).2.2 =
            f.r (f.r (1 / f.exp (detectionEfficiencyR f o.inj o.inj2 (fun i => encode fl.log (v i)) n fl.log).2.1) - f.r (1 / f.rd n)) := rfl
          rw [this, hyi, hn', one_def, hc', ← one_def, hz]
        have hrowv : ∀ e, ∃ ze, (perEventRowR f (o.pe e) (o.pe2 e) (fun i => encode fl.log (w e i)) fl.log).2.2 = fin ze ∧
            |ze - (1 / kish (w e) - 1 / N)| ≤ (2860 + 32 * K) * T ∧ |1 / kish (w e) - 1 / N| ≤ 1 := by
          intro e
          have rk := kish_Rg hR.samples (hw e).nonneg (hwp e)
          have rki : Rg 25 (1 / kish (w e)) := by rw [one_div]; exact rk.inv.mono (by norm_num)
          have rN := Rg.nat (hN1 e) hR.samples
          have rNi : Rg 24 ((1:ℝ) / N) := by rw [one_div]; exact rN.inv
          obtain ⟨c, hc, wc⟩ := C.rdW rNi (by norm_num) (ε := 0) zero_le_one (Within.refl' le_rfl rNi.pos.le)
          have hk1 : 1 / kish (w e) ≤ 1 := by rw [div_le_one rk.pos]; exact (kish_bounds (w e) (hw e).nonneg (hwp e)).1
          have hN1' : (1:ℝ) / N ≤ 1 := by rw [div_le_one rN.pos]; exact_mod_cast hN1 e
          have ey' : |y e - -Real.log (1 / kish (w e))| ≤ (700 + 8 * K) * T := by
            rw [one_div, Real.log_inv, neg_neg]; linarith [ey e]
          obtain ⟨ze, hze, eze⟩ := var_est C hT rki (by positivity) (by linarith) ey' rNi.pos.le hN1' (wc.mono (by linarith) rNi.pos.le)
          refine ⟨ze, ?_, ?_, ?_⟩
          · have : (perEventRowR f (o.pe e) (o.pe2 e) (fun i => encode fl.log (w e i)) fl.log).2.2 =
              f.r (f.r (1 / f.exp (perEventRowR f (o.pe e) (o.pe2 e) (fun i => encode fl.log (w e i)) fl.log).2.1) - f.rd (1 / N)) := rfl
            rw [this, hy, hc, hze]
          · refine eze.trans ?_
            have h1 : 0 ≤ 2 * ((700 + 8 * K) * T) + 30 * T := by positivity
            have h2 := mul_le_mul_of_nonneg_left (show 1 / kish (w e) + 1 / N ≤ 2 by linarith) h1
            linarith
          · rw [abs_le]; constructor <;> linarith [rki.pos, rNi.pos]
        choose ze hze eze bze using hrowv
        have hcn : (0:ℝ) < 1 / n := by positivity
        obtain ⟨tv, htv, etv⟩ := totalVar_est C hT (by positivity) (by linarith) hR.events.1 hR.events.2 hR.obs.1 hR.obs.2 (g := relVar v n + 1 / n) (c := relVar v n - 1 / n) (by linarith) (by linarith)
          (by rw [abs_le]; constructor <;> linarith) (ez.trans (by nlinarith)) bze eze hze ho.var hoD.var
        rw [hd, htv, one_def, le_fin, if_pos]
        refine etv.trans (le_trans ?_ (hvar hc))
        have h1 : 0 ≤ K * T * E := by positivity
        have h2 : 0 ≤ T * E := by positivity
        linarith
    unfold logLikelihoodR
    simp only [hl, hyi, hs, hb, hg, hy, hcut]
    exact hvc
  · refine eL'.trans ?_
    have h2 : κ * (1 + ((18 + K) * E + 34 * Nobs + 3 * tt)) ≤ T * (1 + ((18 + K) * E + 34 * Nobs + 3 * tt)) := mul_le_mul_of_nonneg_right hκT (by positivity)
    have h3 : T ≤ T * E := le_mul_of_one_le_right hT0.le hEr
    have h4 : 0 ≤ T * tt := by positivity
    have h5 : 0 ≤ T * Nobs := by positivity
    linarith

/-- two samples per event with log weights `-1000`, four of eight injections found, in single precision with both sums in a balanced order, the cut on the effective numbers in force: within the
hypotheses -/
example : ∃ (o : Orders 1 2 4) (T : ℝ), o.Covers ∧ o.DepthLe 2 ∧ Budget (2⁻¹ ^ 23) 2 T ∧ 1000 * T ≤ 1 / 128 ∧ binary32.Contract (2⁻¹ ^ 23) ∧
    InRange 1000 true (fun (_ : Fin 1) (_ : Fin 2) => Real.exp (-1000)) (fun _ : Fin 4 => (1:ℝ)) 8 1 ∧
    ((1:ℕ):ℝ) * Real.exp ((800 + 8 * 1000) * T) < kish (fun _ : Fin 2 => Real.exp (-1000)) ∧ 4 * ((1:ℕ):ℝ) * relVar (fun _ : Fin 4 => (1:ℝ)) 8 * Real.exp (2900 * T) ≤ 1 := by
  have he : ∀ x : ℝ, x ≤ 1 / 2 → Real.exp x < 2 := by
    intro x hx
    have h1 : Real.exp x ≤ Real.exp (1 / 2) := Real.exp_le_exp.2 hx
    have h2 : Real.exp (1 / 2) ^ 2 = Real.exp 1 := by rw [← Real.exp_nat_mul]; norm_num
    have h3 := Real.exp_one_lt_d9
    have h4 : Real.exp (1 / 2) < 2 := by
      by_contra h
      push Not at h
      have := pow_le_pow_left₀ (by norm_num) h 2
      rw [h2] at this; norm_num at this; linarith
    linarith
  refine ⟨⟨fun _ => .node (.leaf 0) (.leaf 1), fun _ => .node (.leaf 0) (.leaf 1), .node (.node (.leaf 0) (.leaf 1)) (.node (.leaf 2) (.leaf 3)),
    .node (.node (.leaf 0) (.leaf 1)) (.node (.leaf 2) (.leaf 3)), .leaf 0, .leaf 0⟩, 2⁻¹ ^ 23 * 2 + 2⁻¹ ^ 23,
    ⟨fun _ => .refl _, fun _ => .refl _, .refl _, .refl _, .refl _, .refl _⟩, ⟨fun _ => ?_, fun _ => ?_, ?_, ?_, ?_, ?_⟩,
    ⟨by norm_num, by norm_num⟩, by norm_num, binary32_contract, ⟨by norm_num, by norm_num, by norm_num, by norm_num, by norm_num,
      fun _ => ⟨fun _ => (Real.exp_pos _).le, 0, fun _ => le_rfl, Real.exp_pos _, by rw [Real.log_exp]; norm_num⟩, by simp, fun _ => zero_le_one, 0, fun _ => le_rfl, one_pos, by simp⟩, ?_, ?_⟩
  iterate 6 · simp [RTree.depth]
  · have := he ((800 + 8 * 1000) * (2⁻¹ ^ 23 * 2 + 2⁻¹ ^ 23)) (by norm_num)
    have h2 : kish (fun _ : Fin 2 => Real.exp (-1000)) = 2 := by
      have h0 : Real.exp (-1000) ≠ 0 := (Real.exp_pos _).ne'
      simp only [kish, Finset.sum_const, Finset.card_univ, Fintype.card_fin, nsmul_eq_mul]
      field_simp
      norm_num
    rw [h2]; push_cast; linarith
  · have := he (2900 * (2⁻¹ ^ 23 * 2 + 2⁻¹ ^ 23)) (by norm_num)
    have h2 : relVar (fun _ : Fin 4 => (1:ℝ)) 8 = 1 / 8 := by norm_num [relVar]
    rw [h2]; push_cast; linarith

end GW
end
