import Verif.Model.RoundingPopulation
import Verif.Props.RoundingSplineDensity
import Verif.Props.Rounding
import Verif.Props.LikelihoodSmooth

/-! # Property C145: the likelihood of a population computed entirely in rounded arithmetic -/

open Finset
noncomputable section
open Classical
namespace GW
open F

variable {f : Arith} {κ : ℝ}

/-! ### one weight -/

/-- the products from left to right, `x`, `x x₁`, `x x₁ x₂`, …, are in the range of normal numbers -/
def PrefixOK (x : ℝ) : List ℝ → Prop
  | [] => (2⁻¹:ℝ) ^ 122 ≤ x ∧ x ≤ 2 ^ 122
  | y :: ys => (2⁻¹:ℝ) ^ 122 ≤ x ∧ x ≤ 2 ^ 122 ∧ PrefixOK (x * y) ys

theorem PrefixOK.head {x : ℝ} {l : List ℝ} (h : PrefixOK x l) : (2⁻¹:ℝ) ^ 122 ≤ x ∧ x ≤ 2 ^ 122 := by
  cases l with
  | nil => exact h
  | cons y ys => exact ⟨h.1, h.2.1⟩

theorem Arith.Contract.foldl_rel (C : f.Contract κ) {ε : ℝ} (hε0 : 0 ≤ ε) {xs ys : List ℝ} (h : List.Forall₂ (Rel ε) xs ys) :
    ∀ {ε0 x y : ℝ}, Rel ε0 x y → PrefixOK x xs → ε0 + xs.length * (ε + 2 * κ) ≤ 1 →
      ∃ z, (ys.map fin).foldl (fun a b => f.r (a * b)) (fin y) = fin z ∧ Rel (ε0 + xs.length * (ε + 2 * κ)) (x * xs.prod) z := by
  have hκ := C.pos
  induction h with
  | nil => intro ε0 x y hr _ _; exact ⟨y, rfl, by simpa using hr⟩
  | @cons a b l l' hab hl ih =>
    intro ε0 x y hr hp he
    have hlen : (0:ℝ) ≤ l.length * (ε + 2 * κ) := by positivity
    simp only [List.length_cons, Nat.cast_add, Nat.cast_one] at he ⊢
    obtain ⟨z, ez, rz⟩ := C.rel_round (hr.mul hab) (by nlinarith) hp.2.2.head.1 hp.2.2.head.2
    obtain ⟨u, eu, ru⟩ := ih rz hp.2.2 (by linarith)
    refine ⟨u, ?_, ?_⟩
    · rw [List.map_cons, List.foldl_cons, mul_fin, ez]; exact eu
    · rw [List.prod_cons, ← mul_assoc]
      exact ru.mono (by linarith)

/-- **C145** (one weight).  If each of the computed densities of a sample is within a factor `exp ε` of the exact one, the computed weight is within a factor
`exp ((r + 1) (ε + 2κ))` of the exact one, `r + 1` the number of densities, as long as the products and the quotient stay in the range of normal numbers. -/
theorem C145_weight (C : f.Contract κ) {ε x y prior : ℝ} (hε0 : 0 ≤ ε) {xs ys : List ℝ} (h0 : Within ε x y) (h : List.Forall₂ (Within ε) xs ys) (hx : ∀ a ∈ xs, 0 < a)
    (hp : PrefixOK x xs) (hq : (2⁻¹:ℝ) ^ 122 ≤ x * xs.prod / prior ∧ x * xs.prod / prior ≤ 2 ^ 122) (he : (xs.length + 1) * (ε + 2 * κ) ≤ 1) :
    ∃ z, weightR f (fin y) (ys.map fin) prior = fin z ∧ Within ((xs.length + 1) * (ε + 2 * κ)) (x * xs.prod / prior) z := by
  have hκ := C.pos
  have hx0 : 0 < x := lt_of_lt_of_le (by positivity) hp.head.1
  have h' : List.Forall₂ (Rel ε) xs ys := by
    clear hp hq he
    induction h with
    | nil => exact .nil
    | cons hab _ ih => exact .cons (Rel.of_within (hx _ (by simp)) hab) (ih fun a ha => hx a (by simp [ha]))
  obtain ⟨z, ez, rz⟩ := C.foldl_rel hε0 h' (Rel.of_within hx0 h0) hp (by nlinarith)
  have hpr : prior ≠ 0 := by
    rintro rfl
    rw [div_zero] at hq
    exact absurd hq.1 (not_le.2 (by positivity))
  obtain ⟨u, eu, ru⟩ := C.rel_round (rz.div Rel.refl) (by nlinarith) hq.1 hq.2
  refine ⟨u, ?_, ?_⟩
  · unfold weightR
    rw [ez, div_fin hpr, eu]
  · exact (ru.within (le_trans (by positivity) hq.1)).mono (by linarith) (le_trans (by positivity) hq.1)

/-! ### the likelihood of perturbed weights -/

theorem Within.peak {n : ℕ} {K ε : ℝ} {w w' : Fin n → ℝ} (h : Peak (K - ε) w) (hw : ∀ i, Within ε (w i) (w' i)) : Peak K w' := by
  have h0 : ∀ i, 0 ≤ w' i := fun i => (mul_nonneg (Real.exp_pos _).le (h.nonneg i)).trans (hw i).1
  obtain ⟨j, hj, hj0, hjl⟩ := h.top
  obtain ⟨m, -, hm⟩ := Finset.exists_max_image univ w' ⟨j, mem_univ j⟩
  have hm0 : 0 < w' m := lt_of_lt_of_le ((hw j).pos hj0) (hm j (mem_univ j))
  refine ⟨h0, m, fun i => hm i (mem_univ i), hm0, ?_⟩
  have a1 : w' m ≤ Real.exp ε * w j := (hw m).2.trans (mul_le_mul_of_nonneg_left (hj m) (Real.exp_pos _).le)
  have a2 : Real.exp (-ε) * w j ≤ w' m := (hw j).1.trans (hm j (mem_univ j))
  have := Within.log hj0 (show Within ε (w j) (w' m) from ⟨a2, a1⟩)
  have e : Real.log (w' m) = (Real.log (w' m) - Real.log (w j)) + Real.log (w j) := by ring
  rw [e]
  refine (abs_add_le _ _).trans ?_
  linarith

/-- What is asked of the exact weights: as for `C133_accuracy_partial`, with a margin for the errors `ε` of the weights. -/
structure PopRange {E N M : ℕ} (ε K T : ℝ) (fl : Flags) (w : Fin E → Fin N → ℝ) (v : Fin M → ℝ) (n Nobs : ℕ) : Prop where
  events : 0 < E ∧ E ≤ 2 ^ 20
  obs : 1 ≤ Nobs ∧ Nobs ≤ 2 ^ 20
  samples : N ≤ 2 ^ 24
  found : M ≤ 2 ^ 24 ∧ 2 * M ≤ n
  injections : n ≤ 2 ^ 27
  pe : ∀ e, Peak (K - ε) (w e)
  linear : fl.log = false → K ≤ 13
  inj : Peak (13 - ε) v
  neff : fl.min_neff_cut = true → (∀ e, Nobs * Real.exp ((800 + 8 * K) * T + 4 * ε) < kish (w e)) ∧ 4 * Nobs * relVar v n * Real.exp (2900 * T + 16 * ε) ≤ 1
  var : fl.max_variance_cut = true → (Nobs : ℝ) ^ 2 * (relVar v n - 1 / n) + ∑ e, (1 / kish (w e) - 1 / N) +
      T * (12000 * ((Nobs : ℝ) ^ 2 * (relVar v n + 1 / n)) + (3000 + 40 * K) * E) + ε * (64 * ((Nobs:ℝ) ^ 2 * relVar v n) + 8 * E) ≤ 1

theorem exp_four_le {ε : ℝ} (h0 : 0 ≤ ε) (h : ε ≤ 1 / 32) : Real.exp (4 * ε) ≤ 1 + 8 * ε := by
  have := Real.abs_exp_sub_one_le (x := 4 * ε) (by rw [abs_of_nonneg (by linarith)]; linarith)
  rw [abs_of_nonneg (show 0 ≤ 4 * ε by linarith)] at this
  linarith [(abs_le.1 this).2]

/-- **C145** (likelihood of computed weights).  Let the computed weights be within a factor `exp ε` of the exact ones, and the exact ones in the range of C133 with a margin.
Then `hierarchical_likelihood`, every operation rounded, returns a number that differs from the exact value of its formula at the exact weights by at most
`(400 + 5K) T + ε` per event, `400 T + ε` per unit of `Nobs`, and `12000 T + 16 ε` times the correction for the selection uncertainty, `T = (D + 1) κ`. -/
theorem C145_likelihood {E N M : ℕ} (C : f.Contract κ) {D : ℕ} {T K ε : ℝ} (hT : Budget κ D T) (hKT : K * T ≤ 1 / 128) (hε0 : 0 ≤ ε) (hε : ε ≤ 1 / 32)
    (o : Orders E N M) (ho : o.Covers) (hoD : o.DepthLe D) (fl : Flags)
    (w w' : Fin E → Fin N → ℝ) (v v' : Fin M → ℝ) (n Nobs : ℕ) (hR : PopRange ε K T fl w v n Nobs) (hw : ∀ e i, Within ε (w e i) (w' e i)) (hv' : ∀ i, Within ε (v i) (v' i))
    (Tobs : F) (hv : Option F) (unscaled : F) (hfl : fl.ok) (hhv : fl.reconstruct_rate = true → hv ≠ none) :
    ∃ L L' : ℝ, factors (hierarchical_likelihood fl (.single fun e i => encode fl.log (w e i)) (fun i => encode fl.log (v i)) n Nobs Tobs hv unscaled none).1 = [fin L] ∧
      logLikelihoodR f o fl (fun e i => encode fl.log (w' e i)) (fun i => encode fl.log (v' i)) n Nobs = fin L' ∧
      |L' - L| ≤ ((400 + 5 * K) * T + ε) * E + (400 * T + ε) * Nobs + (12000 * T + 16 * ε) * (if fl.marginalize_selection then Nobs * (3 + Nobs) / 2 * relVar v n else 0) := by
  obtain ⟨q0, hTe, hT1, hT0⟩ := hT.q C.pos
  have hvp := hR.inj.pos
  have hv0 := hR.inj.nonneg
  have hM1 := card_pos_of hvp
  have hMn : M ≤ n := by have := hR.found.2; omega
  have hn1 : 1 ≤ n := by omega
  have hn0 : (0:ℝ) < n := by exact_mod_cast hn1
  have hw0 := fun e => (hR.pe e).nonneg
  have hwp := fun e => (hR.pe e).pos
  have hE := hR.events.1
  have hEr : (1:ℝ) ≤ E := by exact_mod_cast hE
  have hNr : (1:ℝ) ≤ Nobs := by exact_mod_cast hR.obs.1
  have hK0 : 0 ≤ K := by have := (hR.pe ⟨0, hE⟩).K_nonneg; linarith
  have x4 := exp_four_le hε0 hε
  have x1 : 1 ≤ Real.exp (4 * ε) := Real.one_le_exp (by linarith)
  have x16 : 1 + 16 * ε ≤ Real.exp (16 * ε) := by have := Real.add_one_le_exp (16 * ε); linarith
  -- the selection variance
  obtain ⟨hk1, -, -⟩ := relVar_kish hR.found.2 hv0 hvp
  have sv := sum_pos_of hv0 hvp
  obtain ⟨S, hS⟩ : ∃ S, S = (∑ i, v i ^ 2) / (∑ i, v i) ^ 2 := ⟨_, rfl⟩
  have hρ : relVar v n = S - 1 / n := by rw [hS]; rfl
  have hS2 : S ≤ 2 * relVar v n := by
    have : S = 1 / kish v := by rw [hS]; unfold kish; rw [one_div_div]
    rw [this]; exact hk1
  have hS0 : 0 < S := by rw [hS]; exact div_pos sv.2 (pow_pos sv.1 2)
  have ρ0 : 0 < relVar v n := by linarith
  have Sv : Within (4 * ε) S ((∑ i, v' i ^ 2) / (∑ i, v' i) ^ 2) := by
    rw [hS]
    have := (Within.sum fun i => (hv' i).sq (hv0 i)).div sv.2 (pow_pos sv.1 2) ((Within.sum hv').sq sv.1.le)
    rwa [show 2 * ε + 2 * ε = 4 * ε by ring] at this
  have hρ1 : Real.exp (4 * ε) * S - 1 / n ≤ (1 + 16 * ε) * relVar v n := by
    have h1 : Real.exp (4 * ε) * S ≤ (1 + 8 * ε) * S := mul_le_mul_of_nonneg_right x4 hS0.le
    have h2 : ε * S ≤ ε * (2 * relVar v n) := mul_le_mul_of_nonneg_left hS2 hε0
    linarith
  have hρ' : relVar v' n ≤ (1 + 16 * ε) * relVar v n := by
    refine le_trans ?_ hρ1
    show _ - 1 / (n:ℝ) ≤ _
    linarith [Sv.2]
  -- the effective numbers
  have sw := fun e => sum_pos_of (hw0 e) (hwp e)
  have Wk : ∀ e, Within (4 * ε) (kish (w e)) (kish (w' e)) := by
    intro e
    unfold kish
    have := ((Within.sum (hw e)).sq (sw e).1.le).div (pow_pos (sw e).1 2) (sw e).2 (Within.sum fun i => (hw e i).sq (hw0 e i))
    rwa [show 2 * ε + 2 * ε = 4 * ε by ring] at this
  have hk : ∀ e, 1 ≤ kish (w e) := fun e => (kish_bounds (w e) (hw0 e) (hwp e)).1
  have hkx : ∀ e, Real.exp (4 * ε) / kish (w e) ≤ 1 / kish (w e) + 8 * ε := by
    intro e
    have h1 := hk e
    have h2 : 1 / kish (w e) ≤ 1 := by rw [div_le_one (by linarith)]; exact h1
    have h3 : 0 ≤ 1 / kish (w e) := by positivity
    rw [div_eq_mul_one_div]
    nlinarith
  have hkx' : ∀ e, 1 / kish (w' e) ≤ 1 / kish (w e) + 8 * ε := by
    intro e
    refine le_trans ?_ (hkx e)
    have k0 : 0 < kish (w e) := lt_of_lt_of_le one_pos (hk e)
    rw [div_le_div_iff₀ ((Wk e).pos k0) k0, one_mul]
    have := mul_le_mul_of_nonneg_left (Wk e).1 (Real.exp_pos (4 * ε)).le
    rwa [← mul_assoc, ← Real.exp_add, add_neg_cancel, Real.exp_zero, one_mul] at this
  have hρN : 0 ≤ (Nobs:ℝ) ^ 2 * relVar v n := by positivity
  -- C118 and C133
  obtain ⟨L, L1, eL, eL1, hLL⟩ := C118_stability fl w w' v v' n Nobs Tobs hv unscaled ε ε hε0 hε0 hfl hhv hE hR.obs.1 hMn hw0 hwp hv0 hvp hw hv'
    (by
      intro hc
      obtain ⟨a, b⟩ := hR.neff hc
      refine ⟨fun e => lt_of_le_of_lt (mul_le_mul_of_nonneg_left (Real.exp_le_exp.2 ?_) (by linarith)) (a e), ?_⟩
      · have : 0 ≤ (800 + 8 * K) * T := by positivity
        linarith
      · rw [← hS]
        have h1 : Real.exp (16 * ε) ≤ Real.exp (2900 * T + 16 * ε) := Real.exp_le_exp.2 (by linarith)
        calc 4 * (Nobs:ℝ) * (Real.exp (4 * ε) * S - 1 / n) ≤ 4 * Nobs * ((1 + 16 * ε) * relVar v n) := mul_le_mul_of_nonneg_left hρ1 (by linarith)
          _ = 4 * Nobs * relVar v n * (1 + 16 * ε) := by ring
          _ ≤ 4 * Nobs * relVar v n * Real.exp (2900 * T + 16 * ε) := mul_le_mul_of_nonneg_left (x16.trans h1) (by positivity)
          _ ≤ 1 := b)
    (by
      intro hc
      have h := hR.var hc
      rw [← hS]
      have h1 : (Nobs:ℝ) ^ 2 * (Real.exp (4 * ε) * S - 1 / n - 1 / n) ≤ (Nobs:ℝ) ^ 2 * ((1 + 16 * ε) * relVar v n - 1 / n) :=
        mul_le_mul_of_nonneg_left (by linarith) (by positivity)
      have h2 : ∑ e, (Real.exp (4 * ε) / kish (w e) - 1 / N) ≤ ∑ e, (1 / kish (w e) - 1 / N) + 8 * ε * E := by
        calc ∑ e, (Real.exp (4 * ε) / kish (w e) - 1 / N) ≤ ∑ e : Fin E, ((1 / kish (w e) - 1 / N) + 8 * ε) := sum_le_sum fun e _ => by linarith [hkx e]
          _ = ∑ e, (1 / kish (w e) - 1 / N) + 8 * ε * E := by rw [sum_add_distrib]; simp; ring
      have h3 : 0 ≤ T * (12000 * ((Nobs : ℝ) ^ 2 * (relVar v n + 1 / n)) + (3000 + 40 * K) * E) := by positivity
      have h4 : 0 ≤ ε * ((Nobs:ℝ) ^ 2 * relVar v n) := mul_nonneg hε0 hρN
      nlinarith)
  have hInR : InRange K fl.log w' v' n Nobs := ⟨hR.events, hR.obs, hR.samples, hR.found, hR.injections, fun e => Within.peak (hR.pe e) (hw e), hR.linear, Within.peak hR.inj hv'⟩
  obtain ⟨L2, L', eL2, eL', hLL'⟩ := C133_accuracy_partial C hT hKT o ho hoD fl w' v' n Nobs hInR Tobs hv unscaled hfl hhv
    (by
      intro hc
      obtain ⟨a, b⟩ := hR.neff hc
      refine ⟨fun e => lt_of_lt_of_le ?_ (Wk e).1, ?_⟩
      · have := mul_lt_mul_of_pos_left (a e) (Real.exp_pos (-(4 * ε)))
        rw [mul_left_comm, ← Real.exp_add] at this
        rwa [show -(4 * ε) + ((800 + 8 * K) * T + 4 * ε) = (800 + 8 * K) * T by ring] at this
      · have e1 : Real.exp (2900 * T + 16 * ε) = Real.exp (16 * ε) * Real.exp (2900 * T) := by rw [← Real.exp_add]; congr 1; ring
        rw [e1] at b
        refine le_trans ?_ b
        rw [← mul_assoc]
        refine mul_le_mul_of_nonneg_right ?_ (Real.exp_pos _).le
        calc 4 * (Nobs:ℝ) * relVar v' n ≤ 4 * Nobs * ((1 + 16 * ε) * relVar v n) := mul_le_mul_of_nonneg_left hρ' (by linarith)
          _ = 4 * Nobs * relVar v n * (1 + 16 * ε) := by ring
          _ ≤ _ := mul_le_mul_of_nonneg_left x16 (by positivity))
    (by
      intro hc
      have h := hR.var hc
      have g1 : (Nobs:ℝ) ^ 2 * relVar v' n ≤ (Nobs:ℝ) ^ 2 * relVar v n + 16 * (ε * ((Nobs:ℝ) ^ 2 * relVar v n)) := by
        have := mul_le_mul_of_nonneg_left hρ' (sq_nonneg (Nobs:ℝ))
        linarith
      have h2 : ∑ e, (1 / kish (w' e) - 1 / N) ≤ ∑ e, (1 / kish (w e) - 1 / N) + 8 * ε * E := by
        calc ∑ e, (1 / kish (w' e) - 1 / N) ≤ ∑ e : Fin E, ((1 / kish (w e) - 1 / N) + 8 * ε) := sum_le_sum fun e _ => by linarith [hkx' e]
          _ = ∑ e, (1 / kish (w e) - 1 / N) + 8 * ε * E := by rw [sum_add_distrib]; simp; ring
      have h4 : 0 ≤ ε * ((Nobs:ℝ) ^ 2 * relVar v n) := mul_nonneg hε0 hρN
      have h5 : T * ((Nobs:ℝ) ^ 2 * relVar v' n) ≤ T * ((Nobs:ℝ) ^ 2 * relVar v n) + 16 * (T * (ε * ((Nobs:ℝ) ^ 2 * relVar v n))) := by
        have := mul_le_mul_of_nonneg_left g1 hT0.le
        linarith
      have h6 : T * (ε * ((Nobs:ℝ) ^ 2 * relVar v n)) ≤ 1 / 4096 * (ε * ((Nobs:ℝ) ^ 2 * relVar v n)) := mul_le_mul_of_nonneg_right hT1 h4
      linarith)
  have : L2 = L1 := by
    rw [eL1] at eL2
    simpa using eL2.symm
  subst this
  refine ⟨L, L', eL, eL', ?_⟩
  rw [← hS] at hLL
  have e : L' - L = (L' - L2) + (L2 - L) := by ring
  rw [e]
  refine (abs_add_le _ _).trans ((add_le_add hLL' hLL).trans ?_)
  cases fl.marginalize_selection
  · simp only [Bool.false_eq_true, if_false]; linarith
  · simp only [if_true]
    have hk : (0:ℝ) ≤ Nobs * (3 + Nobs) / 2 := by positivity
    have m1 : Nobs * (3 + Nobs) / 2 * relVar v' n ≤ Nobs * (3 + Nobs) / 2 * (2 * relVar v n) := by
      refine mul_le_mul_of_nonneg_left (hρ'.trans ?_) hk
      exact mul_le_mul_of_nonneg_right (by linarith) ρ0.le
    have m2 : Nobs * (3 + Nobs) / 2 * ((Real.exp (4 * ε) - 1) * S) ≤ Nobs * (3 + Nobs) / 2 * (16 * ε * relVar v n) := by
      refine mul_le_mul_of_nonneg_left ?_ hk
      calc (Real.exp (4 * ε) - 1) * S ≤ 8 * ε * S := mul_le_mul_of_nonneg_right (by linarith) hS0.le
        _ ≤ 8 * ε * (2 * relVar v n) := mul_le_mul_of_nonneg_left hS2 (by linarith)
        _ = 16 * ε * relVar v n := by ring
    have m3 := mul_le_mul_of_nonneg_left m1 (by linarith : (0:ℝ) ≤ 6000 * T)
    linarith

/-! ### a log-spline population from end to end -/

/-- the exact density of a log-spline, normalised over its grid -/
def splineDensity (s : Spline) (n : ℕ) (grid : ℕ → ℝ) (c : ℕ → ℝ) (x : ℝ) : ℝ :=
  Real.exp (∑ i ∈ range s.N, s.bBases i x * c i) * (1 / trapz (n + 1) (fun j => Real.exp (∑ i ∈ range s.N, s.bBases i (grid j) * c i)) grid)

/-- the conditions of `C144_density` on spline, grid and coefficients -/
structure SplineOK (κ : ℝ) (s : Spline) (m D D' : ℕ) {n : ℕ} (o : RTree s.N) (og : RTree n) (grid c : ℕ → ℝ) (A : ℝ) : Prop where
  dens : s.DensityOK m o D c A κ
  cover : og.Covers
  depth : og.depth ≤ D'
  points : n ≤ 2 ^ 12
  steps : ∀ j < n, (2⁻¹:ℝ) ^ 18 ≤ grid (j + 1) - grid j ∧ grid (j + 1) - grid j ≤ 2 ^ 18
  inside : ∀ j ≤ n, s.Inside (grid j)
  nonneg : 0 ≤ A
  coefs : A ≤ 30
  err : 2 * ((10 * s.order + 5 + 2 * D) * κ * A) + (18 + 2 * D') * κ ≤ 1 / 32

theorem SplineOK.bounds {s : Spline} {m D D' n : ℕ} {o : RTree s.N} {og : RTree n} {grid c : ℕ → ℝ} {A : ℝ} (C : f.Contract κ) (h : SplineOK κ s m D D' o og grid c A) {x : ℝ}
    (hx : s.Inside x) : (2⁻¹:ℝ) ^ 122 ≤ splineDensity s n grid c x ∧ splineDensity s n grid c x ≤ 2 ^ 122 := by
  have hκ := C.pos
  have hA := h.nonneg
  have hD' : (0:ℝ) ≤ D' * κ := mul_nonneg (Nat.cast_nonneg _) hκ.le
  have hE0 : 0 ≤ (10 * (s.order:ℝ) + 5 + 2 * D) * κ * A := by positivity
  have he := h.err
  have hb : ∀ {v : ℝ}, s.Inside v → (2⁻¹:ℝ) ^ 44 ≤ Real.exp (s.expo c v) ∧ Real.exp (s.expo c v) ≤ 2 ^ 44 := by
    intro v hv
    obtain ⟨_, _, _, h3⟩ := C.expo h.dens hv
    exact exp_bounds h.coefs h3
  obtain ⟨-, -, -, T1, T2⟩ := C.trapz_rel og h.cover h.depth h.points (y := fun j => fin (Real.exp (s.expo c (grid j)))) (Y := fun j => Real.exp (s.expo c (grid j))) le_rfl
    (fun j _ => ⟨_, rfl, Rel.refl⟩) (fun j hj => hb (h.inside j hj)) h.steps (by linarith)
  have hT0 : 0 < trapz (n + 1) (fun j => Real.exp (s.expo c (grid j))) grid := lt_of_lt_of_le (by positivity) T1
  have hinv1 : (2⁻¹:ℝ) ^ 75 ≤ 1 / trapz (n + 1) (fun j => Real.exp (s.expo c (grid j))) grid := by
    rw [one_div, inv_pow]; exact inv_anti₀ hT0 T2
  have hinv2 : 1 / trapz (n + 1) (fun j => Real.exp (s.expo c (grid j))) grid ≤ 2 ^ 63 := by
    rw [one_div]
    refine (inv_anti₀ (by positivity) T1).trans (le_of_eq ?_)
    rw [inv_pow, inv_inv]
  obtain ⟨b1, b2⟩ := hb hx
  constructor
  · calc (2⁻¹:ℝ) ^ 122 ≤ 2⁻¹ ^ 44 * 2⁻¹ ^ 75 := by norm_num
      _ ≤ _ := mul_le_mul b1 hinv1 (by positivity) (le_trans (by positivity) b1)
  · calc _ ≤ (2:ℝ) ^ 44 * 2 ^ 63 := mul_le_mul b2 hinv2 (le_trans (by positivity) hinv1) (by positivity)
      _ ≤ _ := by norm_num

/-- one weight of a log-spline population -/
theorem SplineOK.weight {s : Spline} {m D D' n : ℕ} {o : RTree s.N} {og : RTree n} {grid c : ℕ → ℝ} {A : ℝ} (C : f.Contract κ) (h : SplineOK κ s m D D' o og grid c A) {x prior : ℝ}
    (hx : s.Inside x) (hq : (2⁻¹:ℝ) ^ 122 ≤ splineDensity s n grid c x / prior ∧ splineDensity s n grid c x / prior ≤ 2 ^ 122) :
    ∃ z, weightR f (s.logYEvalR f o og grid (fun i => fin (c i)) x) [] prior = fin z ∧
      Within (2 * ((10 * s.order + 5 + 2 * D) * κ * A) + (18 + 2 * D') * κ) (splineDensity s n grid c x / prior) z := by
  have hκ := C.pos
  have hA := h.nonneg
  have hD' : (0:ℝ) ≤ D' * κ := mul_nonneg (Nat.cast_nonneg _) hκ.le
  have hE0 : 0 ≤ (10 * (s.order:ℝ) + 5 + 2 * D) * κ * A := by positivity
  have he := h.err
  obtain ⟨p, ep, wp⟩ := C144_density C h.dens h.cover h.depth h.points h.steps h.inside hx h.nonneg h.coefs (by linarith)
  obtain ⟨z, ez, wz⟩ := C145_weight C (prior := prior) (by linarith) wp .nil (by simp) (h.bounds C hx) (by rw [List.prod_nil, mul_one]; exact hq) (by simp; linarith)
  refine ⟨z, ?_, ?_⟩
  · rw [ep]; exact ez
  · have e : splineDensity s n grid c x * ([] : List ℝ).prod / prior = splineDensity s n grid c x / prior := by simp
    have := wz.mono (δ := 2 * ((10 * s.order + 5 + 2 * D) * κ * A) + (18 + 2 * D') * κ) (by simp; linarith) (by
      show 0 ≤ splineDensity s n grid c x * ([] : List ℝ).prod / prior
      rw [e]; exact le_trans (by positivity) hq.1)
    change Within _ (splineDensity s n grid c x * ([] : List ℝ).prod / prior) z at this
    rwa [e] at this

/-- **C145** (end to end).  The log-likelihood of a one-parameter log-spline population, with knots, samples, sampling priors and coefficients as given and everything after
that computed in rounded arithmetic — design matrix, exponent, exponential, normalisation over the grid, division by the prior, the Monte Carlo averages, the logarithms and
their sum — differs from the exact value of the formula by at most the bound of `C145_likelihood` with `ε = 2 (10 k + 5 + 2 D) κ A + (18 + 2 D') κ`. -/
theorem C145_spline {E N M : ℕ} (C : f.Contract κ) {Dl : ℕ} {T K ε : ℝ} (hT : Budget κ Dl T) (hKT : K * T ≤ 1 / 128) (ol : Orders E N M) (hol : ol.Covers) (holD : ol.DepthLe Dl)
    (fl : Flags) (hlog : fl.log = false) {s : Spline} {m D D' n : ℕ} {o : RTree s.N} {og : RTree n} {grid c : ℕ → ℝ} {A : ℝ} (h : SplineOK κ s m D D' o og grid c A)
    (hε : ε = 2 * ((10 * s.order + 5 + 2 * D) * κ * A) + (18 + 2 * D') * κ)
    (x prior : Fin E → Fin N → ℝ) (xi priori : Fin M → ℝ) (total Nobs : ℕ) (hx : ∀ e i, s.Inside (x e i)) (hxi : ∀ i, s.Inside (xi i))
    (hR : PopRange ε K T fl (fun e i => splineDensity s n grid c (x e i) / prior e i) (fun i => splineDensity s n grid c (xi i) / priori i) total Nobs)
    (hlow : ∀ e i, (2⁻¹:ℝ) ^ 122 ≤ splineDensity s n grid c (x e i) / prior e i) (hlowi : ∀ i, (2⁻¹:ℝ) ^ 122 ≤ splineDensity s n grid c (xi i) / priori i)
    (Tobs : F) (hv : Option F) (unscaled : F) (hfl : fl.ok) (hhv : fl.reconstruct_rate = true → hv ≠ none) :
    ∃ L L' : ℝ, factors (hierarchical_likelihood fl (.single fun e i => fin (splineDensity s n grid c (x e i) / prior e i)) (fun i => fin (splineDensity s n grid c (xi i) / priori i))
        total Nobs Tobs hv unscaled none).1 = [fin L] ∧
      logLikelihoodR f ol fl (fun e i => weightR f (s.logYEvalR f o og grid (fun i => fin (c i)) (x e i)) [] (prior e i))
        (fun i => weightR f (s.logYEvalR f o og grid (fun i => fin (c i)) (xi i)) [] (priori i)) total Nobs = fin L' ∧
      |L' - L| ≤ ((400 + 5 * K) * T + ε) * E + (400 * T + ε) * Nobs + (12000 * T + 16 * ε) * (if fl.marginalize_selection then
        Nobs * (3 + Nobs) / 2 * relVar (fun i => splineDensity s n grid c (xi i) / priori i) total else 0) := by
  have hκ := C.pos
  have hA := h.nonneg
  have hE0 : 0 ≤ (10 * (s.order:ℝ) + 5 + 2 * D) * κ * A := by positivity
  have hD' : (0:ℝ) ≤ D' * κ := mul_nonneg (Nat.cast_nonneg _) hκ.le
  have he13 : Real.exp 13 ≤ 2 ^ 122 := by
    have e1 : Real.exp 13 = Real.exp 1 ^ 13 := by rw [← Real.exp_nat_mul]; norm_num
    rw [e1]
    have e2 := Real.exp_one_lt_d9
    calc Real.exp 1 ^ 13 ≤ 3 ^ 13 := pow_le_pow_left₀ (Real.exp_pos 1).le (by linarith) 13
      _ ≤ 2 ^ 122 := by norm_num
  have top : ∀ {k : ℕ} {K' : ℝ} {w : Fin k → ℝ}, K' ≤ 13 → Peak K' w → ∀ i, w i ≤ 2 ^ 122 := by
    intro k K' w hK' hP i
    obtain ⟨j, hj, hj0, hjl⟩ := hP.top
    refine (hj i).trans (le_trans ?_ he13)
    rw [← Real.exp_log hj0]
    exact Real.exp_le_exp.2 ((le_abs_self _).trans (hjl.trans hK'))
  have hε0 : 0 ≤ ε := by rw [hε]; linarith
  have h1 := fun e i => h.weight C (hx e i) ⟨hlow e i, top (by have := hR.linear hlog; linarith) (hR.pe e) i⟩
  have h2 := fun i => h.weight C (hxi i) ⟨hlowi i, top (by linarith) hR.inj i⟩
  choose w' ew' ww' using h1
  choose v' ev' wv' using h2
  obtain ⟨L, L', eL, eL', hL⟩ := C145_likelihood C hT hKT hε0 (by rw [hε]; exact h.err) ol hol holD fl _ w' _ v' total Nobs hR (fun e i => by rw [hε]; exact ww' e i)
    (fun i => by rw [hε]; exact wv' i) Tobs hv unscaled hfl hhv
  refine ⟨L, L', ?_, ?_, hL⟩
  · simpa only [hlog, encode, Bool.false_eq_true, if_false] using eL
  · simp only [hlog, encode, Bool.false_eq_true, if_false] at eL'
    simpa only [ew', ev'] using eL'

theorem hatSplineOK : SplineOK (2⁻¹ ^ 23) hatSpline 3 2 1 hatOrder hatGridOrder hatGrid (fun _ => 0) 0 where
  dens := hatSpline_density (by simp) (by norm_num)
  cover := by unfold RTree.Covers hatGridOrder; decide
  depth := by decide
  points := by norm_num
  steps := hatGrid_step
  inside j hj := hatSpline_inside (hatGrid_inside j hj).1 (hatGrid_inside j hj).2
  nonneg := le_rfl
  coefs := by norm_num
  err := by norm_num

theorem hatSpline_uniform (x : ℝ) : splineDensity hatSpline 2 hatGrid (fun _ => 0) x = 1 / 2 := by
  simp [splineDensity, trapz, hatGrid]
  norm_num

/-- The whole computation in single precision: the uniform density on [1, 3] as a log-spline with coefficients zero, one event with two samples, four of eight injections found, the
sampling prior 1/2, the cut on the effective numbers in force.  The log-likelihood comes out within a thousandth, wherever the samples lie. -/
example (x : Fin 1 → Fin 2 → ℝ) (hx : ∀ e i, 1 ≤ x e i ∧ x e i ≤ 3) (xi : Fin 4 → ℝ) (hxi : ∀ i, 1 ≤ xi i ∧ xi i ≤ 3) :
    ∃ L' : ℝ, logLikelihoodR binary32 ⟨fun _ => .node (.leaf 0) (.leaf 1), fun _ => .node (.leaf 0) (.leaf 1), .node (.node (.leaf 0) (.leaf 1)) (.node (.leaf 2) (.leaf 3)),
        .node (.node (.leaf 0) (.leaf 1)) (.node (.leaf 2) (.leaf 3)), .leaf 0, .leaf 0⟩ ({ marginalize_selection := false } : Flags)
        (fun e i => weightR binary32 (hatSpline.logYEvalR binary32 hatOrder hatGridOrder hatGrid (fun _ => fin 0) (x e i)) [] (1 / 2))
        (fun i => weightR binary32 (hatSpline.logYEvalR binary32 hatOrder hatGridOrder hatGrid (fun _ => fin 0) (xi i)) [] (1 / 2)) 8 1 = fin L' ∧
      |L' - Real.log 2| ≤ 1 / 1000 := by
  have he : ∀ x : ℝ, x ≤ 1 / 2 → Real.exp x < 2 := by
    intro x hx
    have h1 : Real.exp x ≤ Real.exp (1 / 2) := Real.exp_le_exp.2 hx
    have h2 : Real.exp (1 / 2) ^ 2 = Real.exp 1 := by rw [← Real.exp_nat_mul]; norm_num
    have h3 := Real.exp_one_lt_d9
    have h4 : Real.exp (1 / 2) < 2 := by
      by_contra h
      push Not at h
      have := pow_le_pow_left₀ (by norm_num) h 2
      rw [h2] at this; norm_num at this; linarith
    linarith
  have e1 : ∀ y : ℝ, splineDensity hatSpline 2 hatGrid (fun _ => 0) y / (1 / 2) = 1 := fun y => by rw [hatSpline_uniform]; norm_num
  have hk : kish (fun _ : Fin 2 => (1:ℝ)) = 2 := by norm_num [kish]
  have hr : relVar (fun _ : Fin 4 => (1:ℝ)) 8 = 1 / 8 := by norm_num [relVar]
  obtain ⟨L, L', eL, eL', hL⟩ := C145_spline (E := 1) (N := 2) (M := 4) (Dl := 2) (T := 2⁻¹ ^ 23 * 2 + 2⁻¹ ^ 23) (K := 1) (ε := 20 * 2⁻¹ ^ 23) binary32_contract ⟨by norm_num, by norm_num⟩ (by norm_num)
    ⟨fun _ => .node (.leaf 0) (.leaf 1), fun _ => .node (.leaf 0) (.leaf 1), .node (.node (.leaf 0) (.leaf 1)) (.node (.leaf 2) (.leaf 3)),
        .node (.node (.leaf 0) (.leaf 1)) (.node (.leaf 2) (.leaf 3)), .leaf 0, .leaf 0⟩ ⟨fun _ => .refl _, fun _ => .refl _, .refl _, .refl _, .refl _, .refl _⟩
    ⟨fun _ => by simp [RTree.depth], fun _ => by simp [RTree.depth], by simp [RTree.depth], by simp [RTree.depth], by simp [RTree.depth], by simp [RTree.depth]⟩
    ({ marginalize_selection := false } : Flags) rfl hatSplineOK (by norm_num) x (fun _ _ => 1 / 2) xi (fun _ => 1 / 2) 8 1 (fun e i => hatSpline_inside (hx e i).1 (hx e i).2)
    (fun i => hatSpline_inside (hxi i).1 (hxi i).2)
    (by
      simp only [e1]
      refine ⟨by norm_num, by norm_num, by norm_num, by norm_num, by norm_num, fun _ => ⟨fun _ => zero_le_one, 0, fun _ => le_rfl, one_pos, by norm_num⟩, fun _ => by norm_num,
        ⟨fun _ => zero_le_one, 0, fun _ => le_rfl, one_pos, by norm_num⟩, fun _ => ⟨fun _ => ?_, ?_⟩, fun h => by simp at h⟩
      · rw [hk]
        have := he ((800 + 8 * 1) * (2⁻¹ ^ 23 * 2 + 2⁻¹ ^ 23) + 4 * (20 * 2⁻¹ ^ 23)) (by norm_num)
        push_cast; linarith
      · rw [hr]
        have := he (2900 * (2⁻¹ ^ 23 * 2 + 2⁻¹ ^ 23) + 16 * (20 * 2⁻¹ ^ 23)) (by norm_num)
        push_cast; linarith)
    (fun e i => by rw [e1]; norm_num) (fun i => by rw [e1]; norm_num) 1 (some 1) 1 (by simp [Flags.ok]) (by simp)
  have eL0 := C47_value (E := 1) (N := 2) (M := 4) ({ marginalize_selection := false } : Flags) (fun _ _ => 1) (fun _ => 1) 8 1 1 (some 1) 1 none (by simp [Flags.ok]) (by simp) (by norm_num) le_rfl
    (fun _ _ => zero_le_one) (fun _ => ⟨0, one_pos⟩) (fun _ => zero_le_one) ⟨0, one_pos⟩ (by norm_num) (fun _ => ⟨fun _ => by rw [hk]; norm_num, by rw [hr]; norm_num⟩) (fun h => by simp at h)
  simp only [e1] at eL
  simp only [encode, Bool.false_eq_true, if_false] at eL0
  have : L = Real.log 2 := by
    rw [eL0] at eL
    simp [mean] at eL
    rw [← eL, show (4:ℝ) / 8 = 2⁻¹ by norm_num, Real.log_inv, neg_neg]
  refine ⟨L', eL', ?_⟩
  rw [← this]
  refine hL.trans ?_
  norm_num

end GW
end
