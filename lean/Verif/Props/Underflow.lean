import Verif.Props.Rounding

/-! # Property C134: the cut on the effective numbers in rounded arithmetic, and where underflow disables it -/

open Finset
noncomputable section
open Classical
namespace GW
open F

variable {f : Arith} {κ : ℝ}

/-- a sum of zeros, in any order -/
theorem Arith.Contract.sum_zero (C : f.Contract κ) {n : ℕ} {a : Fin n → F} (ha : ∀ i, a i = fin 0) (t : RTree n) : f.sum a t = fin 0 := by
  induction t with
  | leaf i => rw [Arith.sum, ha]
  | node l r hl hr => rw [Arith.sum, hl, hr, add_fin, add_zero, Arith.r_fin, C.rd_zero]

/-- the per-event cut fires, up to rounding, when some event has too few effective samples -/
theorem neffCutR_fires (C : f.Contract κ) {E D : ℕ} {T K : ℝ} (hT : Budget κ D T) (hK : K * T ≤ 1 / 128) {fl : Flags} (hc : fl.min_neff_cut = true) {Nobs : ℕ} (hN : Nobs ≤ 2 ^ 20) {a : Fin E → F} {y k : Fin E → ℝ}
    (hk : ∀ e, Rg 24 (k e)) (ha : ∀ e, nanToNum (a e) = fin (y e)) (hy : ∀ e, |y e - Real.log (k e)| ≤ (700 + 8 * K) * T) {e : Fin E} (he : k e * Real.exp ((800 + 8 * K) * T) ≤ Nobs) (L : F) :
    neffCutR f fl Nobs a L = negBig := by
  obtain ⟨q0, hTe, hT1, hT0⟩ := hT.q C.pos
  have κ0 := C.pos
  unfold neffCutR
  simp only [hc, if_true, ha]
  obtain ⟨m, h1, h2, e0, h3⟩ := minF_real y (Fin.pos e)
  have hm80 : |m| ≤ 80 := by
    have := (hk e0).log
    norm_num at this
    have h4 := hy e0
    rw [show m = (y e0 - Real.log (k e0)) + Real.log (k e0) by rw [h3]; ring]
    exact (abs_add_le _ _).trans (by linarith)
  obtain ⟨g, hg, wg⟩ := C.exp_norm m hm80
  rw [show (minF fun e => fin (y e)) = fin m from h1, hg, C.rd_nat Nobs (by omega), le_fin, if_pos]
  · rfl
  · refine wg.2.trans ?_
    rw [← Real.exp_add]
    refine le_trans ?_ he
    rw [← Real.exp_log (hk e).pos, ← Real.exp_add]
    have := (abs_le.1 (hy e)).2
    exact Real.exp_le_exp.2 (by linarith [h2 e])

/-- **C134** (the cut works in the range of C133).  With `min_neff_cut`, whenever some event has too few effective samples, or the injections are too few, by more than the margin of the
rounding errors, the log-likelihood computed is the large negative constant.  Partial: for injections with weights below the range see `C134_underflow_fails`. -/
theorem C134_cut_partial {E N M : ℕ} (C : f.Contract κ) {D : ℕ} {T K : ℝ} (hT : Budget κ D T) (hKT : K * T ≤ 1 / 128) (o : Orders E N M) (ho : o.Covers) (hoD : o.DepthLe D) (fl : Flags) (hfl : fl.ok)
    (hcut : fl.min_neff_cut = true) (w : Fin E → Fin N → ℝ) (v : Fin M → ℝ) (n Nobs : ℕ) (hR : InRange K fl.log w v n Nobs)
    (hpoor : (∃ e, kish (w e) * Real.exp ((800 + 8 * K) * T) ≤ Nobs) ∨ Real.exp (2900 * T) < 4 * Nobs * relVar v n) :
    logLikelihoodR f o fl (fun e i => encode fl.log (w e i)) (fun i => encode fl.log (v i)) n Nobs = negBig := by
  obtain ⟨q0, hTe, hT1, hT0⟩ := hT.q C.pos
  have κ0 := C.pos
  have hw := hR.pe
  have hwp : ∀ e, ∃ i, 0 < w e i := fun e => (hw e).pos
  have hK0 : 0 ≤ K := (hw ⟨0, hR.events.1⟩).K_nonneg
  have hKb := C.K_big hK0 (show κ ≤ T by linarith) hKT
  have hvm := hR.inj
  have hvp := hvm.pos
  have hmv : fl.max_variance_cut = false := by
    cases h : fl.max_variance_cut with
    | false => rfl
    | true => exact absurd ⟨h, Or.inr hcut⟩ hfl
  have hrow := fun e => row_est C hT hR.samples (hw e) hKT (ho.pe e) (ho.pe2 e) (hoD.pe e) (hoD.pe2 e) fl.log hR.linear
  choose x y hx hy ex ey using hrow
  have rk : ∀ e, Rg 24 (kish (w e)) := fun e => kish_Rg hR.samples (hw e).nonneg (hwp e)
  unfold logLikelihoodR
  simp only [varianceCut, hmv, Bool.false_eq_true, if_false]
  rcases hpoor with ⟨e, he⟩ | hinj
  · exact neffCutR_fires C hT hKT hcut hR.obs.2 rk (fun e => by rw [hy e]; simp) ey he _
  · obtain ⟨l, yi, hl, hyi, el, eyi⟩ := inj_est C hT hR.found.1 hR.injections hR.found.2 hvm le_rfl ho.inj ho.inj2 hoD.inj hoD.inj2 fl.log
    obtain ⟨rρ, ρ1⟩ := relVar_Rg hR.found.1 hR.found.2 hvm.nonneg hvp
    obtain ⟨b, hb, eb, bb⟩ := bf_est C hT hR.events.1 hR.events.2 hK0 hKT (fun e => (hw e).mean_log hR.samples) ex hx ho.bf hoD.bf
    have hEr' : (E:ℝ) ≤ 1048576 := by exact_mod_cast hR.events.2
    have hEr : (1:ℝ) ≤ E := by exact_mod_cast hR.events.1
    have hsel : selectionFactorR f fl Nobs (fin l) (fin yi) = negBig := by
      have hnat : f.rd (4 * (Nobs:ℝ)) = fin (4 * Nobs) := by
        have := C.rd_nat (4 * Nobs) (by have := hR.obs.2; omega)
        push_cast at this; exact this
      have r4 : Rg 22 (4 * (Nobs:ℝ)) := by
        have := Rg.nat (n := 4 * Nobs) (m := 22) (by have := hR.obs.1; omega) (by have := hR.obs.2; omega)
        push_cast at this; exact this
      obtain ⟨z, hz, ez⟩ := C.logW r4 (by norm_num) (ε := 0) zero_le_one (Within.refl' le_rfl r4.pos.le)
      norm_num at ez
      have h5 : 2900 * T < Real.log (4 * Nobs) + Real.log (relVar v n) := by
        have := Real.log_lt_log (Real.exp_pos _) hinj
        rwa [Real.log_exp, Real.log_mul r4.pos.ne' rρ.pos.ne'] at this
      have hge : ¬ ge (fin yi) (f.log (f.rd (4 * Nobs))) := by
        rw [hnat, hz, ge_fin, not_le]
        rw [abs_le] at ez eyi
        linarith [ez.1, eyi.2]
      unfold selectionFactorR
      simp only [hcut, if_true]
      rw [if_neg hge]
      simp [negBig]
    have hg : guardedLogLR f negBig (fin b) = negBig := by
      unfold guardedLogLR negBig
      rw [add_fin, Arith.r_fin, C.rd_big b]
      · simp
      · rw [show b = (b - ∑ e, Real.log (mean (w e))) + ∑ e, Real.log (mean (w e)) by ring]
        refine (abs_add_le _ _).trans ((add_le_add eb bb).trans ?_)
        have h1 : (K + 17) * (E:ℝ) ≤ (2 ^ 50 + 17) * 1048576 := mul_le_mul (by linarith) hEr' (by linarith) (by norm_num)
        have h2 : K * T * E ≤ 1 / 128 * E := mul_le_mul_of_nonneg_right hKT (by linarith)
        have h3 : T * E ≤ 1 / 4096 * E := mul_le_mul_of_nonneg_right hT1 (by linarith)
        norm_num at h1 ⊢
        linarith
    simp only [hl, hyi, hsel, hb, hg]
    unfold neffCutR
    simp only [hcut, if_true]
    split_ifs <;> rfl

/-- injections whose squares underflow: the effective number comes out infinite, whatever it is -/
theorem inj_under (C : f.Contract κ) {M n D : ℕ} {T : ℝ} (hT : Budget κ D T) (hM : M ≤ 2 ^ 24) (hn : n ≤ 2 ^ 27) (hMn : 2 * M ≤ n) {w : Fin M → ℝ}
    (hw : ∀ i, w i = 0 ∨ (2⁻¹ ^ 85 ≤ w i ∧ w i ≤ 2⁻¹ ^ 77)) (hp : ∃ i, 0 < w i) {t t2 : RTree M} (ht : t.Covers) (hD : t.depth ≤ D) (lg : Bool) :
    ∃ l, (detectionEfficiencyR f t t2 (fun i => encode lg (w i)) n lg).1 = fin l ∧ (detectionEfficiencyR f t t2 (fun i => encode lg (w i)) n lg).2.1 = pinf ∧
      |l - Real.log ((∑ i, w i) / n)| ≤ 300 * T ∧ -78.4 ≤ Real.log ((∑ i, w i) / n) ∧ Real.log ((∑ i, w i) / n) ≤ -53 := by
  obtain ⟨q0, hTe, hT1, hT0⟩ := hT.q C.pos
  have κ0 := C.pos
  have hw0 : ∀ i, 0 ≤ w i := fun i => (hw i).elim (fun h => h.symm.le) fun h => le_trans (by positivity) h.1
  have hwz : ∀ i, w i = 0 ∨ 0 < w i := fun i => (hw i).imp id fun h => lt_of_lt_of_le (by positivity) h.1
  obtain ⟨hS, hQ⟩ := sum_pos_of hw0 hp
  have hM1 := card_pos_of hp
  have hn1 : 1 ≤ n := by omega
  have hn0 : (0:ℝ) < n := by exact_mod_cast hn1
  have hMnr : (2:ℝ) * M ≤ n := by exact_mod_cast hMn
  have rn := Rg.nat hn1 hn
  have hS1 : 2⁻¹ ^ 85 ≤ ∑ i, w i := by
    obtain ⟨i, hi⟩ := hp
    exact (((hw i).resolve_left hi.ne').1).trans (Finset.single_le_sum (fun j _ => hw0 j) (mem_univ i))
  have hS2 : ∑ i, w i ≤ M * 2⁻¹ ^ 77 := by
    calc ∑ i, w i ≤ ∑ _i : Fin M, (2⁻¹:ℝ) ^ 77 := Finset.sum_le_sum fun i _ => (hw i).elim (fun h => by rw [h]; positivity) fun h => h.2
      _ = M * 2⁻¹ ^ 77 := by simp
  have hmu1 : 2⁻¹ ^ 112 ≤ (∑ i, w i) / n := by
    rw [le_div_iff₀ hn0]
    refine le_trans (mul_le_mul_of_nonneg_left rn.2 (by positivity)) (le_trans ?_ hS1)
    norm_num
  have hmu2 : (∑ i, w i) / n ≤ 2⁻¹ ^ 78 := by
    rw [div_le_iff₀ hn0]
    refine hS2.trans ?_
    have : (2⁻¹:ℝ) ^ 77 = 2 * 2⁻¹ ^ 78 := by norm_num
    rw [this]
    have := mul_le_mul_of_nonneg_right hMnr (show (0:ℝ) ≤ 2⁻¹ ^ 78 by positivity)
    linarith
  have hmu0 : 0 < (∑ i, w i) / n := div_pos hS hn0
  have rmu : Rg 112 ((∑ i, w i) / n) := ⟨hmu1, hmu2.trans (by norm_num)⟩
  have hlog1 : -78.4 ≤ Real.log ((∑ i, w i) / n) := by
    have := (abs_le.1 rmu.log).1
    norm_num at this ⊢; linarith
  have hlog2 : Real.log ((∑ i, w i) / n) ≤ -53 := by
    refine (Real.log_le_log hmu0 hmu2).trans ?_
    rw [Real.log_pow, Real.log_inv]
    have := Real.log_two_gt_d9
    push_cast; linarith
  obtain ⟨n', hn', wn'⟩ := C.rdW rn (by norm_num) (ε := 0) zero_le_one (Within.refl' le_rfl hn0.le)
  have hn'0 : n' ≠ 0 := by
    have h1 : 0 < Real.exp (-(0 + 2 * κ)) * n := mul_pos (Real.exp_pos _) hn0
    have := wn'.1
    linarith
  obtain ⟨n2, hn2, wn2⟩ := C.sqW (by linarith) (Or.inr rn) (by norm_num) wn'
  have hn20 : n2 ≠ 0 := by
    have h1 := mul_pos (Real.exp_pos (-(2 * (0 + 2 * κ) + 2 * κ))) (pow_pos hn0 2)
    have := wn2.1
    linarith
  -- squares become zero
  have hsq0 : ∀ {a x ε : ℝ}, 0 ≤ a → a ≤ 2⁻¹ ^ 77 → ε ≤ 1 → Within ε a x → f.r (sq (fin x)) = fin 0 := by
    intro a x ε ha0 ha hε h
    have h1 := h.le_three hε ha0
    have h2 : 0 ≤ x := (mul_nonneg (Real.exp_pos _).le ha0).trans h.1
    rw [sq_fin, Arith.r_fin]
    refine C.rd_under _ ?_
    rw [abs_of_nonneg (mul_nonneg h2 h2)]
    have h3 : x ≤ 3 * 2⁻¹ ^ 77 := by linarith
    calc x * x ≤ (3 * 2⁻¹ ^ 77) * (3 * 2⁻¹ ^ 77) := mul_le_mul h3 h3 h2 (by positivity)
      _ < 2⁻¹ ^ 150 := by norm_num
  have hvar : ∀ mu : ℝ, Within (301 * T) ((∑ i, w i) / n) mu →
      f.r (f.r (fin 0 / fin n2) - f.r (f.r (sq (fin mu)) / fin n')) = fin 0 := by
    intro mu hmu
    rw [hsq0 hmu0.le (hmu2.trans (by norm_num)) (by linarith) hmu, div_fin hn20, div_fin hn'0]
    simp only [zero_div, Arith.r_fin, C.rd_zero, sub_fin, sub_zero]
  have hneff : ∀ l : ℝ, |l| ≤ 80 → f.r (f.r (2 * fin l) - f.log (fin 0)) = pinf := by
    intro l hl
    obtain ⟨l', hl', -⟩ := C.rdA (a := 2 * l) (x := 2 * l) (ε := 0) (K := 160) (by rw [abs_mul, abs_two]; linarith) (by norm_num) (by simp)
    rw [C.log_zero, ofNat_def, mul_fin, Arith.r_fin]
    push_cast
    rw [hl']
    rfl
  have hl80 : ∀ l : ℝ, |l - Real.log ((∑ i, w i) / n)| ≤ 300 * T → |l| ≤ 80 := by
    intro l hl
    rw [abs_le] at hl ⊢
    norm_num at hlog1
    constructor <;> linarith
  cases lg with
  | false =>
    obtain ⟨s, hs, ws⟩ := C.sumW hM (a := fun i => encode false (w i)) (fun i => rfl) (δ := 0) (m := 85) zero_le_one (fun i => Within.refl' le_rfl (hw0 i))
      (fun i => (hw i).imp id fun h => ⟨h.1, h.2.trans (by norm_num)⟩) (by norm_num) t ht hD (by linarith)
    obtain ⟨mu, hmu, wmu⟩ := C.divW hS hn0 rmu (by norm_num) (by linarith) ws wn'
    obtain ⟨l, hl, el⟩ := C.logW rmu (by norm_num) (by linarith) wmu
    norm_num at el
    have el' : |l - Real.log ((∑ i, w i) / n)| ≤ 300 * T := el.trans (by linarith)
    have hs2 : f.sum (fun i => f.r (sq (encode false (w i)))) t2 = fin 0 :=
      C.sum_zero (fun i => hsq0 (ε := 0) (hw0 i) ((hw i).elim (fun h => by rw [h]; positivity) fun h => h.2) zero_le_one (Within.refl' le_rfl (hw0 i))) t2
    refine ⟨l, ?_, ?_, el', hlog1, hlog2⟩
    · simp only [detectionEfficiencyR, Bool.false_eq_true, if_false]
      rw [hs, hn', hmu, hl]
    · simp only [detectionEfficiencyR, Bool.false_eq_true, if_false]
      rw [hs, hn', hmu, hl, hs2, hn2, hvar mu (wmu.mono (by linarith) hmu0.le), hneff l (hl80 l el')]
  | true =>
    obtain ⟨j, hj, hj0, hjK⟩ : ∃ j, (∀ i, w i ≤ w j) ∧ 0 < w j ∧ |Real.log (w j)| ≤ 60 := by
      obtain ⟨i₀, hi₀⟩ := hp
      obtain ⟨j, -, hj⟩ := Finset.exists_max_image univ w ⟨i₀, mem_univ _⟩
      have hj0 : 0 < w j := hi₀.trans_le (hj i₀ (mem_univ _))
      have hr := (hw j).resolve_left hj0.ne'
      have := (show Rg 85 (w j) from ⟨hr.1, hr.2.trans (by norm_num)⟩).log
      norm_num at this
      exact ⟨j, fun i => hj i (mem_univ _), hj0, by linarith⟩
    obtain ⟨l0, hl0, el0⟩ := C.lse hT hM hw0 hj hj0 hjK (by linarith) (β := 0) (a := fun i => encode true (w i)) le_rfl (by norm_num)
      (fun i => (encode_cases (hwz i)).imp (fun h => ⟨by rw [h.1]; positivity, Or.inl h.2⟩) fun h => ⟨h.1, _, h.2, by simp⟩) ht hD
    obtain ⟨ln, hln, eln⟩ := C.logW rn (by norm_num) (by linarith) wn'
    norm_num at el0 eln
    have e1 : |l0 - ln - Real.log ((∑ i, w i) / n)| ≤ 215 * κ + 2 * (κ * D) := by
      rw [Real.log_div hS.ne' hn0.ne', show l0 - ln - (Real.log (∑ i, w i) - Real.log n) = (l0 - Real.log (∑ i, w i)) - (ln - Real.log n) by ring]
      refine (abs_sub _ _).trans ?_
      linarith
    have hml := rmu.log
    norm_num at hml
    obtain ⟨l, hl, el⟩ := C.rdA (K := 79) (by linarith) (by norm_num) e1
    have el' : |l - Real.log ((∑ i, w i) / n)| ≤ 300 * T := el.trans (by linarith)
    obtain ⟨mu, hmu, wmu⟩ := C.expA (hl80 l el') el'
    rw [Real.exp_log hmu0] at wmu
    have hs2 : f.sum (fun i => f.r (sq (f.exp (encode true (w i))))) t2 = fin 0 := by
      refine C.sum_zero (fun i => ?_) t2
      have : ∃ x, f.exp (encode true (w i)) = fin x ∧ Within κ (w i) x := by
        rcases encode_cases (hwz i) with ⟨h0, h⟩ | ⟨h0, h⟩
        · exact ⟨0, by rw [h, C.exp_ninf], by rw [h0]; simp [Within]⟩
        · have hr := (hw i).resolve_left h0.ne'
          have := (show Rg 85 (w i) from ⟨hr.1, hr.2.trans (by norm_num)⟩).log
          norm_num at this
          obtain ⟨x, hx, wx⟩ := C.expA (a := Real.log (w i)) (x := Real.log (w i)) (ε := 0) (by linarith) (by simp)
          rw [Real.exp_log h0, zero_add] at wx
          exact ⟨x, by rw [h, hx], wx⟩
      obtain ⟨x, hx, wx⟩ := this
      rw [hx]
      exact hsq0 (hw0 i) ((hw i).elim (fun h => by rw [h]; positivity) fun h => h.2) (by linarith) wx
    refine ⟨l, ?_, ?_, el', hlog1, hlog2⟩
    · simp only [detectionEfficiencyR, if_true]
      rw [hl0, hn', hln, sub_fin, Arith.r_fin, hl]
    · simp only [detectionEfficiencyR, if_true]
      rw [hl0, hn', hln, sub_fin, Arith.r_fin, hl, hmu, hs2, hn2, hvar mu (wmu.mono (by linarith) hmu0.le), hneff l (hl80 l el')]

/-- **C134** is false of small weights.  Let the weights of the found injections be zero or between `2⁻⁸⁵` and `2⁻⁷⁷`, as a common factor on the weights can make them, and let their effective number
be below the threshold `4 Nobs`.  Without rounding the selection term is the large negative constant.  In rounded arithmetic the squares of the weights underflow, the variance
is zero, the effective number is infinite, and the log-likelihood computed is that of no cut at all, `∑ log mean - Nobs log mu`. -/
theorem C134_underflow_fails {E N M : ℕ} (C : f.Contract κ) {D : ℕ} {T K : ℝ} (hT : Budget κ D T) (hKT : K * T ≤ 1 / 128) (o : Orders E N M) (ho : o.Covers) (hoD : o.DepthLe D) (fl : Flags) (hfl : fl.ok)
    (hcut : fl.min_neff_cut = true) (w : Fin E → Fin N → ℝ) (v : Fin M → ℝ) (n Nobs : ℕ) (hE : 0 < E ∧ E ≤ 2 ^ 20) (hNobs : 1 ≤ Nobs ∧ Nobs ≤ 2 ^ 20) (hN : N ≤ 2 ^ 24)
    (hM : M ≤ 2 ^ 24 ∧ 2 * M ≤ n) (hn : n ≤ 2 ^ 27) (hwm : ∀ e, Peak K (w e)) (hlin : fl.log = false → K ≤ 13)
    (hv : (∀ i, v i = 0 ∨ (2⁻¹ ^ 85 ≤ v i ∧ v i ≤ 2⁻¹ ^ 77)) ∧ ∃ i, 0 < v i) (hgood : ∀ e, Nobs * Real.exp ((800 + 8 * K) * T) < kish (w e)) (hfew : 1 < 4 * Nobs * relVar v n)
    (Tobs : F) (hz : Option F) (unscaled : F) (hhz : fl.reconstruct_rate = true → hz ≠ none) :
    factors (hierarchical_likelihood fl (.single fun e i => encode fl.log (w e i)) (fun i => encode fl.log (v i)) n Nobs Tobs hz unscaled none).1 =
      [fin (-BIG + ∑ e, Real.log (mean (w e)))] ∧
    ∃ L', logLikelihoodR f o fl (fun e i => encode fl.log (w e i)) (fun i => encode fl.log (v i)) n Nobs = fin L' ∧
      |L' - (∑ e, Real.log (mean (w e)) - Nobs * Real.log ((∑ i, v i) / n))| ≤ T * ((500 + 5 * K) * E + 600 * Nobs) ∧ Real.log ((∑ i, v i) / n) ≤ -53 := by
  obtain ⟨q0, hTe, hT1, hT0⟩ := hT.q C.pos
  have κ0 := C.pos
  have hκT : κ ≤ T := by linarith
  have hwp : ∀ e, ∃ i, 0 < w e i := fun e => (hwm e).pos
  have hK0 : 0 ≤ K := (hwm ⟨0, hE.1⟩).K_nonneg
  have hKb := C.K_big hK0 hκT hKT
  have hv0 : ∀ i, 0 ≤ v i := fun i => (hv.1 i).elim (fun h => h.symm.le) fun h => le_trans (by positivity) h.1
  have hNr : (1:ℝ) ≤ Nobs := by exact_mod_cast hNobs.1
  have hNr' : (Nobs:ℝ) ≤ 1048576 := by exact_mod_cast hNobs.2
  have hEr : (1:ℝ) ≤ E := by exact_mod_cast hE.1
  have hEr' : (E:ℝ) ≤ 1048576 := by exact_mod_cast hE.2
  have hmv : fl.max_variance_cut = false := by
    cases h : fl.max_variance_cut with
    | false => rfl
    | true => exact absurd ⟨h, Or.inr hcut⟩ hfl
  have hMn : M ≤ n := by have := hM.2; omega
  constructor
  · have hb := C40_value w (fun e => (hwm e).nonneg) hwp fl.log
    have hkish : ∀ e, (Nobs:ℝ) < kish (w e) := fun e =>
      lt_of_le_of_lt (le_mul_of_one_le_right (by linarith) (Real.one_le_exp (by positivity))) (hgood e)
    have hd := detection_efficiency_value hMn v hv0 hv.2 fl.log
    have hrv : 0 < relVar v n := by
      by_contra h
      have : 4 * (Nobs:ℝ) * relVar v n ≤ 0 := mul_nonpos_of_nonneg_of_nonpos (by linarith) (not_lt.1 h)
      linarith
    have h := (C46_selection_cut fl (.single fun e i => encode fl.log (w e i)) (fun i => encode fl.log (v i)) n Nobs Tobs hz unscaled none hcut hfl hhz hE.1 hNobs.1
      (lt_of_le_of_lt hNr' (by norm_num)) ?_ ?_).1
    · rw [h]
      simp only [PEWeights.array, hb, sum_fin, isnan_fin, if_false, negBig, add_fin, nanToNum_fin]
    · unfold PoorEvent
      simp only [PEWeights.array, hb, isnan_fin, exp_fin, le_fin, false_or, not_exists, not_le]
      intro e
      rw [Real.exp_log (by linarith [hkish e])]
      exact hkish e
    · rw [hd]
      simp only [if_neg hrv.ne']
      rw [log_fin (by linarith), le_fin, not_le, ← sub_pos]
      have := Real.log_pos hfew
      rw [Real.log_mul (by positivity) hrv.ne'] at this
      linarith
  · have hrow := fun e => row_est C hT hN (hwm e) hKT (ho.pe e) (ho.pe2 e) (hoD.pe e) (hoD.pe2 e) fl.log hlin
    choose x y hx hy ex ey using hrow
    obtain ⟨b, hb, eb, bb⟩ := bf_est C hT hE.1 hE.2 hK0 hKT (fun e => (hwm e).mean_log hN) ex hx ho.bf hoD.bf
    obtain ⟨l, hl, hyi, el, hlm1, hlm2⟩ := inj_under C hT hM.1 hn hM.2 hv.1 hv.2 ho.inj (t2 := o.inj2) hoD.inj fl.log
    set lm := Real.log ((∑ i, v i) / n) with hlm
    have hlmabs : |lm| ≤ 78.4 := by rw [abs_le]; exact ⟨hlm1, hlm2.trans (by norm_num)⟩
    norm_num at hlmabs
    -- the selection term
    have h1 : ∃ l1, (if fl.marginalize_selection = true then f.r (fin l - f.r (f.rd (3 + Nobs) / f.r (2 * f.exp pinf))) else fin l) = fin l1 ∧ |l1 - lm| ≤ 380 * T := by
      cases hm : fl.marginalize_selection with
      | false => exact ⟨l, by simp, by linarith⟩
      | true =>
        have hnat : f.rd (3 + (Nobs:ℝ)) = fin (3 + Nobs) := by
          have := C.rd_nat (3 + Nobs) (by have := hNobs.2; omega)
          push_cast at this; exact this
        obtain ⟨l1, hl1, el1⟩ := C.rdA (K := 79) (by linarith) (by norm_num) el
        refine ⟨l1, ?_, el1.trans (by linarith)⟩
        simp only [if_true]
        rw [C.exp_pinf, ofNat_def, fin_mul_pinf, infOfSign_pos (by norm_num), show f.r pinf = pinf from rfl, hnat, fin_div_pinf, Arith.r_fin, C.rd_zero, sub_fin, sub_zero, Arith.r_fin, hl1]
    obtain ⟨l1, hl1, el1⟩ := h1
    have hge : ge pinf (f.log (f.rd (4 * Nobs))) := by
      have hnat : f.rd (4 * (Nobs:ℝ)) = fin (4 * Nobs) := by
        have := C.rd_nat (4 * Nobs) (by have := hNobs.2; omega)
        push_cast at this; exact this
      have r4 : Rg 22 (4 * (Nobs:ℝ)) := by
        have := Rg.nat (n := 4 * Nobs) (m := 22) (by have := hNobs.1; omega) (by have := hNobs.2; omega)
        push_cast at this; exact this
      obtain ⟨z, hz, -⟩ := C.logW r4 (by norm_num) (ε := 0) zero_le_one (Within.refl' le_rfl r4.pos.le)
      rw [hnat, hz]; trivial
    have e4 : |-(Nobs:ℝ) * l1 - -Nobs * lm| ≤ Nobs * (380 * T) := by
      rw [← mul_sub, abs_mul, abs_neg, abs_of_pos (by linarith)]
      exact mul_le_mul_of_nonneg_left el1 (by linarith)
    have hK : |-(Nobs:ℝ) * lm| + Nobs * (380 * T) ≤ Nobs * 79 := by
      rw [abs_mul, abs_neg, abs_of_pos (by linarith), ← mul_add]
      exact mul_le_mul_of_nonneg_left (by linarith) (by linarith)
    obtain ⟨s, hs, es⟩ := C.rdA hK (by norm_num; linarith) e4
    have hsel : selectionFactorR f fl Nobs (fin l) pinf = fin s := by
      unfold selectionFactorR
      simp only [hl1, hcut, if_true, if_pos hge, isinf_fin, if_false, C.rd_nat Nobs (by have := hNobs.2; omega), neg_fin, mul_fin, Arith.r_fin]
      exact hs
    -- the sum
    have es' : |s - -Nobs * lm| ≤ 461 * T * Nobs := by
      refine es.trans ?_
      have h2 : κ * (1 + Nobs * 79) ≤ T * (1 + Nobs * 79) := mul_le_mul_of_nonneg_right hκT (by positivity)
      have h3 : T ≤ T * Nobs := le_mul_of_one_le_right hT0.le hNr
      linarith
    have e1 : |s + b - (∑ e, Real.log (mean (w e)) - Nobs * lm)| ≤ (280 + 4 * K) * T * E + 461 * T * Nobs := by
      rw [show s + b - (∑ e, Real.log (mean (w e)) - Nobs * lm) = (b - ∑ e, Real.log (mean (w e))) + (s - -Nobs * lm) by ring]
      exact (abs_add_le _ _).trans (add_le_add eb es')
    have hK' : |∑ e, Real.log (mean (w e)) - Nobs * lm| + ((280 + 4 * K) * T * E + 461 * T * Nobs) ≤ (18 + K) * E + 79 * Nobs := by
      have h1 : |(Nobs:ℝ) * lm| ≤ Nobs * (392 / 5) := by
        rw [abs_mul, abs_of_pos (by linarith)]; exact mul_le_mul_of_nonneg_left hlmabs (by linarith)
      have h2 := abs_sub (∑ e, Real.log (mean (w e))) (Nobs * lm)
      have h3 : T * E ≤ 1 / 4096 * E := mul_le_mul_of_nonneg_right hT1 (by linarith)
      have h4 : T * Nobs ≤ 1 / 4096 * Nobs := mul_le_mul_of_nonneg_right hT1 (by linarith)
      have h6 : K * T * E ≤ 1 / 128 * E := mul_le_mul_of_nonneg_right hKT (by linarith)
      norm_num at bb
      linarith
    obtain ⟨L', hL', eL'⟩ := C.rdA hK' (by
      have : (18 + K) * (E:ℝ) ≤ (18 + 2 ^ 50) * 1048576 := mul_le_mul (by linarith) hEr' (by linarith) (by norm_num)
      norm_num at this ⊢; linarith) e1
    refine ⟨L', ?_, ?_, hlm2⟩
    · have hg : guardedLogLR f (fin s) (fin b) = fin L' := by
        unfold guardedLogLR
        rw [add_fin, Arith.r_fin, hL']; simp
      have hcut' := neffCutR_passes C hT hKT fl hE.1 hNobs.2 (fun e => kish_Rg hN (hwm e).nonneg (hwp e)) ey (fun _ => hgood) (fin L')
      unfold logLikelihoodR
      simp only [hl, hyi, hsel, hb, hg, hy, hcut', varianceCut, hmv, Bool.false_eq_true, if_false]
    · refine eL'.trans ?_
      have h2 : κ * (1 + ((18 + K) * E + 79 * Nobs)) ≤ T * (1 + ((18 + K) * E + 79 * Nobs)) := mul_le_mul_of_nonneg_right hκT (by positivity)
      have h3 : T ≤ T * E := le_mul_of_one_le_right hT0.le hEr
      have h5 : 0 ≤ T * Nobs := by positivity
      have h6 : 0 ≤ T * E := by positivity
      linarith

/-- **C134** is false of the linear path when the weights of an event are small.  With `min_neff_cut` and weights (not log weights), at least two observations and at most `2¹⁴` samples: if the weights of one event are
zero or between `2⁻⁹⁹` and `2⁻⁹²`, the squares underflow, the effective number is `0 / 0`, and the log-likelihood is the large negative constant, however many effective samples the event has. -/
theorem C134_linear_underflow_fails {E N M : ℕ} (C : f.Contract κ) {D : ℕ} {T : ℝ} (hT : Budget κ D T) (o : Orders E N M) (ho : o.Covers) (hoD : o.DepthLe D) (fl : Flags) (hfl : fl.ok)
    (hcut : fl.min_neff_cut = true) (hlog : fl.log = false) (w : Fin E → Fin N → ℝ) (inj : Fin M → F) (n Nobs : ℕ) (hNobs : 2 ≤ Nobs ∧ Nobs ≤ 2 ^ 20) (hN : N ≤ 2 ^ 14)
    (e₀ : Fin E) (hw : ∀ e ≠ e₀, Peak 13 (w e))
    (hw₀ : ∀ i, w e₀ i = 0 ∨ (2⁻¹ ^ 99 ≤ w e₀ i ∧ w e₀ i ≤ 2⁻¹ ^ 92)) :
    logLikelihoodR f o fl (fun e i => encode fl.log (w e i)) inj n Nobs = negBig := by
  obtain ⟨q0, hTe, hT1, hT0⟩ := hT.q C.pos
  have κ0 := C.pos
  have hN24 : N ≤ 2 ^ 24 := by omega
  have hmv : fl.max_variance_cut = false := by
    cases h : fl.max_variance_cut with
    | false => rfl
    | true => exact absurd ⟨h, Or.inr hcut⟩ hfl
  have hw0 : ∀ i, 0 ≤ w e₀ i := fun i => (hw₀ i).elim (fun h => h.symm.le) fun h => le_trans (by positivity) h.1
  have hsq0 : ∀ {x : ℝ}, 0 ≤ x → x ≤ 3 * 2⁻¹ ^ 78 → f.r (sq (fin x)) = fin 0 := by
    intro x h2 h3
    rw [sq_fin, Arith.r_fin]
    refine C.rd_under _ ?_
    rw [abs_of_nonneg (mul_nonneg h2 h2)]
    calc x * x ≤ (3 * 2⁻¹ ^ 78) * (3 * 2⁻¹ ^ 78) := mul_le_mul h3 h3 h2 (by positivity)
      _ < 2⁻¹ ^ 150 := by norm_num
  have hnan : (perEventRowR f (o.pe e₀) (o.pe2 e₀) (fun i => encode fl.log (w e₀ i)) fl.log).2.1 = nan := by
    obtain ⟨s, hs, ws⟩ := C.sumW hN24 (a := fun i => encode false (w e₀ i)) (fun i => rfl) (δ := 0) (m := 99) zero_le_one (fun i => Within.refl' le_rfl (hw0 i))
      (fun i => (hw₀ i).imp id fun h => ⟨h.1, h.2.trans (by norm_num)⟩) (by norm_num) (o.pe e₀) (ho.pe e₀) (hoD.pe e₀) (by linarith)
    have hS0 : 0 ≤ ∑ i, w e₀ i := Finset.sum_nonneg fun i _ => hw0 i
    have hS : ∑ i, w e₀ i ≤ 2⁻¹ ^ 78 := by
      calc ∑ i, w e₀ i ≤ ∑ _i : Fin N, (2⁻¹:ℝ) ^ 92 := Finset.sum_le_sum fun i _ => (hw₀ i).elim (fun h => by rw [h]; positivity) fun h => h.2
        _ = N * 2⁻¹ ^ 92 := by simp
        _ ≤ 2 ^ 14 * 2⁻¹ ^ 92 := mul_le_mul_of_nonneg_right (by exact_mod_cast hN) (by positivity)
        _ = 2⁻¹ ^ 78 := by norm_num
    have hs3 := ws.le_three (by linarith) hS0
    have hs0 : 0 ≤ s := (mul_nonneg (Real.exp_pos _).le hS0).trans ws.1
    have hs2 : f.sum (fun i => f.r (sq (encode false (w e₀ i)))) (o.pe2 e₀) = fin 0 := by
      refine C.sum_zero (fun i => hsq0 (hw0 i) ?_) _
      rcases hw₀ i with h | h
      · rw [h]; positivity
      · exact h.2.trans (by norm_num)
    simp only [perEventRowR, hlog, Bool.false_eq_true, if_false]
    rw [hs, hsq0 hs0 (by linarith), hs2]
    have : (fin 0 / fin 0 : F) = nan := by simp [div_fin_zero]
    rw [this]
    exact C.log_nan
  have hrow : ∀ e, ∃ y k, nanToNum (perEventRowR f (o.pe e) (o.pe2 e) (fun i => encode fl.log (w e i)) fl.log).2.1 = fin y ∧ Rg 24 k ∧ |y - Real.log k| ≤ (700 + 8 * 13) * T ∧ (e = e₀ → k = 1) := by
    intro e
    by_cases he : e = e₀
    · subst he
      refine ⟨0, 1, by rw [hnan]; rfl, ⟨by norm_num, by norm_num⟩, by simp; linarith, fun _ => rfl⟩
    · obtain ⟨x, y, -, hy, -, ey⟩ := row_est C hT hN24 (hw e he) (by linarith) (ho.pe e) (ho.pe2 e) (hoD.pe e) (hoD.pe2 e) fl.log (fun _ => le_rfl)
      exact ⟨y, kish (w e), by rw [hy]; rfl, kish_Rg hN24 (hw e he).nonneg (hw e he).pos, ey, fun h => absurd h he⟩
  choose y k hy rk ey hk using hrow
  unfold logLikelihoodR
  simp only [varianceCut, hmv, Bool.false_eq_true, if_false]
  refine neffCutR_fires C hT (K := 13) (by linarith) hcut hNobs.2 rk hy ey (e := e₀) ?_ _
  rw [hk e₀ rfl, one_mul]
  have hNr : (2:ℝ) ≤ Nobs := by exact_mod_cast hNobs.1
  refine le_trans ?_ hNr
  have h1 : Real.exp ((800 + 8 * 13) * T) ≤ Real.exp (1 / 2) := Real.exp_le_exp.2 (by linarith)
  have h2 : Real.exp (1 / 2) ^ 2 = Real.exp 1 := by rw [← Real.exp_nat_mul]; norm_num
  have h3 := Real.exp_one_lt_d9
  by_contra h
  push Not at h
  have := pow_le_pow_left₀ (by norm_num) (h.le.trans h1) 2
  rw [h2] at this; norm_num at this; linarith

/-- the order of the sums in the example below -/
def smallOrders : Orders 1 2 1 where
  pe := fun _ => .node (.leaf 0) (.leaf 1)
  pe2 := fun _ => .node (.leaf 0) (.leaf 1)
  inj := .leaf 0
  inj2 := .leaf 0
  bf := .leaf 0
  var := .leaf 0

theorem smallOrders_covers : smallOrders.Covers := ⟨fun _ => .refl _, fun _ => .refl _, .refl _, .refl _, .refl _, .refl _⟩

theorem smallOrders_depth : smallOrders.DepthLe 1 := by constructor <;> simp [RTree.depth, smallOrders]

/-- two equal samples of one event, a single one of eight injections found with weight `2⁻⁸⁰`, in single precision: the effective number of injections is `8 / 7`, the threshold is 4,
and the log-likelihood computed is above 50 -/
example : ∃ L' : ℝ, logLikelihoodR binary32 smallOrders { reconstruct_rate := false } (fun _ _ => encode false 1) (fun _ => encode false (2⁻¹ ^ 80)) 8 1 = fin L' ∧ 50 ≤ L' := by
  have he : Real.exp (800 * (2⁻¹ ^ 23 * (1:ℕ) + 2⁻¹ ^ 23)) < 2 := by
    have h1 : Real.exp (800 * (2⁻¹ ^ 23 * (1:ℕ) + 2⁻¹ ^ 23)) ≤ Real.exp (1 / 2) := Real.exp_le_exp.2 (by norm_num)
    have h2 : Real.exp (1 / 2) ^ 2 = Real.exp 1 := by rw [← Real.exp_nat_mul]; norm_num
    have h3 := Real.exp_one_lt_d9
    by_contra h
    push Not at h
    have := pow_le_pow_left₀ (by norm_num) (h.trans h1) 2
    rw [h2] at this; norm_num at this; linarith
  have hk : kish (fun _ : Fin 2 => (1:ℝ)) = 2 := by norm_num [kish]
  have hr : relVar (fun _ : Fin 1 => (2⁻¹:ℝ) ^ 80) 8 = 7 / 8 := by norm_num [relVar]
  obtain ⟨-, L', h1, h2, h3⟩ := C134_underflow_fails binary32_contract (D := 1) (T := 2⁻¹ ^ 23 * (1:ℕ) + 2⁻¹ ^ 23) (K := 0) ⟨rfl, by norm_num⟩ (by norm_num) smallOrders smallOrders_covers smallOrders_depth
    { reconstruct_rate := false } (by simp [Flags.ok]) rfl
    (fun _ _ => 1) (fun _ => 2⁻¹ ^ 80) 8 1 ⟨by norm_num, by norm_num⟩ ⟨le_rfl, by norm_num⟩ (by norm_num) ⟨by norm_num, by norm_num⟩ (by norm_num)
    (fun _ => ⟨fun _ => zero_le_one, 0, fun _ => le_rfl, one_pos, by simp⟩) (by norm_num) ⟨fun _ => Or.inr ⟨by norm_num, by norm_num⟩, 0, by positivity⟩
    (fun _ => by rw [hk]; simpa using he) (by rw [hr]; norm_num) 1 none 1 (by intro h; cases h)
  refine ⟨L', h1, ?_⟩
  have h4 := (abs_le.1 h2).1
  have h5 : ∑ _e : Fin 1, Real.log (mean fun _ : Fin 2 => (1:ℝ)) = 0 := by norm_num [mean]
  rw [h5] at h4
  generalize Real.log ((∑ _i : Fin 1, (2⁻¹:ℝ) ^ 80) / (8:ℕ)) = z at h3 h4
  norm_num at h4
  linarith

end GW
end
