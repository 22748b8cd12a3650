import Verif.Model.SplinePerturbation
import Verif.Props.RedshiftSpline
import Verif.Props.Distributions

/-! # Properties C75, C76: spline-perturbed mass models -/

open Finset
noncomputable section
open Classical
namespace GW
open F

theorem PLMass.make_ok {n : ℕ} {a b : Arr ℝ} {mmin m2min mmax : ℝ} {k : ℕ} {m : PLMass}
    (h : PLMass.make n a b mmin m2min mmax k = .ok m) :
    m.m2min = m2min ∧ m.mmin = mmin ∧ m.mmax = mmax ∧ m.m1pe = a ∧ m.m1inj = b ∧
      Spline.init n (some (plKnots n k (Real.log mmin) (Real.log mmax)))
        (some (linspace (Real.log mmin) (Real.log mmax) (n + 2 - k))) (Real.log mmin) (Real.log mmax) 4 = .ok m.s := by
  unfold PLMass.make at h
  split_ifs at h
  · simp [bind, Except.bind, throw, throwThe, MonadExceptOf.throw] at h
  · cases hs : Spline.init n (some (plKnots n k (Real.log mmin) (Real.log mmax)))
        (some (linspace (Real.log mmin) (Real.log mmax) (n + 2 - k))) (Real.log mmin) (Real.log mmax) 4 with
    | error e => rw [hs] at h; simp [bind, Except.bind, pure, Except.pure] at h
    | ok s =>
      rw [hs] at h
      simp only [bind, Except.bind, pure, Except.pure, Except.ok.injEq] at h
      subst h
      exact ⟨rfl, rfl, rfl, rfl, rfl, rfl⟩

/-- The hand-made knots are the knots `BSpline` would have chosen itself. -/
theorem C75_knots_are_default (n : ℕ) (hn : 4 ≤ n) (a b : Arr ℝ) (mmin m2min mmax : ℝ) :
    ∃ m, PLMass.make n a b mmin m2min mmax 4 = .ok m ∧
      ∃ s, Spline.init n none none (Real.log mmin) (Real.log mmax) 4 = .ok s ∧
        m.s.N = s.N ∧ m.s.order = s.order ∧ m.s.lo = s.lo ∧ m.s.hi = s.hi ∧
        ∀ j < n + 4, m.s.knots.get j = s.knots.get j := by
  have hlen : (plKnots n 4 (Real.log mmin) (Real.log mmax)).len = n + 4 := by
    change (4 - 1) + (n + 2 - 4) + (4 - 1) = n + 4; omega
  obtain ⟨s, hs, ho, hN, hlo, hhi, hl, hget⟩ := init_default (nDf := n) (k := 4) (lo := Real.log mmin) (hi := Real.log mmax)
    (by norm_num) hn
  refine ⟨⟨m2min, mmin, mmax, ⟨4, n, Real.log mmin, Real.log mmax, plKnots n 4 (Real.log mmin) (Real.log mmax)⟩, a, b⟩,
    ?_, s, hs, hN.symm, ho.symm, hlo.symm, hhi.symm, ?_⟩
  · unfold PLMass.make Spline.init
    rw [if_neg (by omega)]
    simp only [pure_bind]
    rw [if_pos hlen]
    rfl
  · intro j hj
    rw [hget]
    generalize Real.log mmin = lo
    generalize Real.log mmax = hi
    have hc : ((n + 2 - 4 : ℕ) : ℝ) - 1 = (n : ℝ) - 4 + 1 := by
      rw [Nat.cast_sub (by omega)]; push_cast; ring
    have hd : (linspace lo hi (n + 2 - 4)).get 1 - (linspace lo hi (n + 2 - 4)).get 0 = (hi - lo) / ((n : ℝ) - 4 + 1) := by
      rw [linspace_get, linspace_get, hc]; push_cast; ring
    have hpos : (n : ℝ) - 4 + 1 ≠ 0 := by
      have : (4 : ℝ) ≤ n := by exact_mod_cast hn
      intro h; linarith
    simp only [plKnots, hd]
    change (if j < 4 - 1 then _ else if j < 4 - 1 + (n + 2 - 4) then _ else _) = _
    have h4 : ((4 : ℕ) : ℝ) = 4 := by norm_num
    rw [h4]
    split_ifs with h1 h2
    · rw [Nat.cast_sub (by omega)]; push_cast; ring
    · rw [linspace_get, hc, Nat.cast_sub (by omega)]; push_cast; ring
    · have e : ((j - (4 - 1) - (linspace lo hi (n + 2 - 4)).len + 1 : ℕ) : ℝ) = (j : ℝ) - n := by
        change ((j - (4 - 1) - (n + 2 - 4) + 1 : ℕ) : ℝ) = _
        have : j - (4 - 1) - (n + 2 - 4) + 1 = j - n := by omega
        rw [this, Nat.cast_sub (by omega)]
      rw [e]; push_cast; field_simp; ring

/-- Any other value of the advertised parameter `k` makes the constructor fail its own length assertion. -/
theorem C75_order_parameter_fails (n k : ℕ) (hk : 1 ≤ k) (hn : k ≤ n) (hk4 : k ≠ 4) (a b : Arr ℝ) (mmin m2min mmax : ℝ) :
    PLMass.make n a b mmin m2min mmax k = .error .assertion := by
  unfold PLMass.make Spline.init
  rw [if_neg (by omega)]
  simp only [pure_bind]
  rw [if_neg]
  · rfl
  · change ¬ ((k - 1) + (n + 2 - k) + (k - 1) = n + 4); omega

/-- the perturbed power-law weight, as a real function of mass -/
def massWeight (alpha low high : ℝ) (s : Spline) (c : ℕ → ℝ) (x : ℝ) : ℝ :=
  (powerlaw_pdf (fin x) (fin (-alpha)) (fin low) (fin high)).toReal * Real.exp (einsum s.N (fun i => s.bBases i (Real.log x)) c)

theorem trapz_pos_of_exists {n : ℕ} (hn : 2 ≤ n) {y x : ℕ → ℝ} (hy : ∀ i < n, 0 ≤ y i) (hex : ∃ i < n, 0 < y i)
    (hx : ∀ i, i + 1 < n → x i < x (i + 1)) : 0 < trapz n y x := by
  unfold trapz
  obtain ⟨j, hj, hjp⟩ := hex
  refine mul_pos (by norm_num) (sum_pos' (fun i hi => ?_) ?_)
  · have : i + 1 < n := by have := mem_range.1 hi; omega
    exact mul_nonneg (by linarith [hx i this]) (by linarith [hy i (by omega), hy (i+1) this])
  · by_cases hl : j + 1 < n
    · exact ⟨j, mem_range.2 (by omega), mul_pos (by linarith [hx j hl]) (by linarith [hy (j+1) hl])⟩
    · have hj1 : j - 1 + 1 = j := by omega
      refine ⟨j - 1, mem_range.2 (by omega), ?_⟩
      rw [hj1]
      have := hx (j - 1) (by omega)
      rw [hj1] at this
      exact mul_pos (by linarith) (by linarith [hy (j-1) (by omega)])

/-- **C75.** For every power law index, bounds `0 < low < high` covering at least one point of the mass grid and every
coefficient vector: both data sets are evaluated with one density `d` of primary mass, proportional to
`m^(-alpha) exp(spline(log m))` on `[low, high]` (zero outside), with unit trapezoid integral over the 1000-point grid
`mmin..mmax`; and the mass-ratio factor is the normalised power law on `[m2min/m1, 1]`.  Partial; missing: orders other than the default: `C75_order_parameter_fails`. -/
theorem C75_primary_mass_density_partial (n k : ℕ) (a b : Arr ℝ) (mmin m2min mmax : ℝ) (m : PLMass) (hmm : mmin < mmax)
    (h : PLMass.make n a b mmin m2min mmax k = .ok m) (alpha low high beta : ℝ)
    (hlow : 0 < low) (hlh : low < high) (hcov : ∃ j < 1000, low ≤ (linspace mmin mmax 1000).get j ∧
      (linspace mmin mmax 1000).get j ≤ high) (c : ℕ → ℝ) :
    ∃ d, UnitOnGrid (massWeight alpha low high m.s c) mmin mmax d ∧
      (∀ x, (x < low ∨ high < x → d x = 0) ∧ (low ≤ x → x ≤ high → 0 < d x)) ∧
      ∀ (twoD : Bool) (q : Arr ℝ) (i : ℕ),
        m.p_m1 twoD (if twoD then a else b) (fin alpha) (fin low) (fin high) c i
          = fin (d ((if twoD then a else b).get i)) ∧
        m.call twoD (if twoD then a else b) q (fin alpha) (fin beta) (fin low) (fin high) c i
          = fin (d ((if twoD then a else b).get i)) *
            powerlaw_pdf (fin (q.get i)) (fin beta) (fin m2min / fin ((if twoD then a else b).get i)) 1 := by
  obtain ⟨e1, e2, e3, e4, e5, -⟩ := PLMass.make_ok h
  have hpl : ∀ x : ℝ, (x < low ∨ high < x → powerlaw_pdf (fin x) (fin (-alpha)) (fin low) (fin high) = fin 0) ∧
      (low ≤ x → x ≤ high → ∃ v : ℝ, 0 < v ∧ powerlaw_pdf (fin x) (fin (-alpha)) (fin low) (fin high) = fin v) := by
    intro x
    constructor
    · intro hx
      rw [powerlaw_pdf_out (by rcases hx with h | h; exacts [Or.inl h, Or.inr h])]; rfl
    · intro h1 h2
      refine ⟨_, ?_, powerlaw_pdf_in hlow hlh h1 h2⟩
      exact mul_pos (Real.rpow_pos_of_pos (hlow.trans_le h1) _) (plNorm_pos hlow hlh)
  have hfin : ∀ x : ℝ, powerlaw_pdf (fin x) (fin (-alpha)) (fin low) (fin high) * m.perturbation c x
      = fin (massWeight alpha low high m.s c x) := by
    intro x
    have hp : m.perturbation c x = fin (Real.exp (einsum m.s.N (fun i => m.s.bBases i (Real.log x)) c)) := by
      simp [PLMass.perturbation, bProject, bNorm, F.exp]
    rw [hp, massWeight]
    by_cases hx : low ≤ x ∧ x ≤ high
    · obtain ⟨v, -, e⟩ := (hpl x).2 hx.1 hx.2
      rw [e, F.mul_fin]; rfl
    · have : x < low ∨ high < x := by rw [not_and_or, not_le, not_le] at hx; exact hx
      rw [(hpl x).1 this, F.mul_fin]; rfl
  have hw0 : ∀ x, x < low ∨ high < x → massWeight alpha low high m.s c x = 0 := by
    intro x hx; rw [massWeight, (hpl x).1 hx]; simp [F.toReal]
  have hwp : ∀ x, low ≤ x → x ≤ high → 0 < massWeight alpha low high m.s c x := by
    intro x h1 h2
    obtain ⟨v, hv, e⟩ := (hpl x).2 h1 h2
    rw [massWeight, e]
    exact mul_pos hv (Real.exp_pos _)
  have hwn : ∀ x, 0 ≤ massWeight alpha low high m.s c x := by
    intro x
    by_cases hx : low ≤ x ∧ x ≤ high
    · exact (hwp x hx.1 hx.2).le
    · rw [not_and_or, not_le, not_le] at hx; exact (hw0 x hx).ge
  obtain ⟨j, hj, hj1, hj2⟩ := hcov
  have hpos : 0 < trapz 1000 (fun i => massWeight alpha low high m.s c ((linspace mmin mmax 1000).get i))
      (linspace mmin mmax 1000).get :=
    trapz_pos_of_exists (by norm_num) (fun i _ => hwn _) ⟨j, hj, hwp _ hj1 hj2⟩
      (fun i _ => linspace_strictMono hmm (by norm_num) (Nat.lt_succ_self i))
  have hnorm : m.norm (fin alpha) (fin low) (fin high) c = fin (trapz 1000
      (fun i => massWeight alpha low high m.s c ((linspace mmin mmax 1000).get i)) (linspace mmin mmax 1000).get) := by
    have hms : m.ms = linspace mmin mmax 1000 := by rw [PLMass.ms, e2, e3]
    rw [PLMass.norm, hms, ← trapzF_fin]
    exact trapzF_congr (n := 1000) (fun i _ => by rw [F.neg_fin]; exact hfin _) (fun _ _ => rfl)
  refine ⟨fun x => massWeight alpha low high m.s c x / trapz 1000
      (fun i => massWeight alpha low high m.s c ((linspace mmin mmax 1000).get i)) (linspace mmin mmax 1000).get,
    ⟨⟨_, inv_pos.2 hpos, fun z => by rw [div_eq_inv_mul]⟩, by rw [trapz_div, div_self hpos.ne']⟩,
    fun x => ⟨fun hx => by simp only [hw0 x hx, zero_div], fun h1 h2 => div_pos (hwp x h1 h2) hpos⟩, fun twoD q i => ?_⟩
  have hp1 : m.p_m1 twoD (if twoD then a else b) (fin alpha) (fin low) (fin high) c i
      = fin (massWeight alpha low high m.s c ((if twoD then a else b).get i) / trapz 1000
      (fun i => massWeight alpha low high m.s c ((linspace mmin mmax 1000).get i)) (linspace mmin mmax 1000).get) := by
    rw [PLMass.p_m1, e4, e5, hnorm, F.neg_fin, hfin, F.div_fin hpos.ne']
  exact ⟨hp1, by rw [PLMass.call, hp1, PLMass.p_q, e1]⟩

/-- **C75**, mass-ratio factor: for `0 < m2min < m1` the factor of C75 is a probability density in `q` on
`[m2min/m1, 1]`. -/
theorem C75_ratio_normalised (m2min m1 beta : ℝ) (h0 : 0 < m2min) (h : m2min < m1) :
    IsPdfOn (fun q => powerlaw_pdf (fin q) (fin beta) (fin m2min / fin m1) 1) (m2min / m1) 1 := by
  have hm : 0 < m1 := h0.trans h
  simp only [F.div_fin hm.ne', F.one_def]
  exact (C17_powerlaw_normalised beta (m2min / m1) 1 _ (div_pos h0 hm) ((div_lt_one hm).2 h)).1

example : ∃ j < 1000, (5 : ℝ) ≤ (linspace 3 100 1000).get j ∧ (linspace 3 100 1000).get j ≤ 80 := by
  refine ⟨100, by norm_num, ?_⟩
  rw [linspace_get]; norm_num

/-- **C76 fails.** `PowerlawBasisSplinePrimaryRatio` cannot be constructed: for every number of splines, bounds and `k`
the constructor raises (with `k = 4` and at least 4 splines it is the AttributeError on `self.qknots`). -/
theorem C76_never_constructs_fails (nm nq : ℕ) (mmin mmax : ℝ) (k : ℕ) :
    (∃ e, primaryRatioInit nm nq mmin mmax k = .error e) ∧
    (4 ≤ nm → 4 ≤ nq → primaryRatioInit nm nq mmin mmax 4 = .error (.attribute "qknots")) := by
  have key : ("qknots" ∈ primaryRatioAssigned) = False := by simp [primaryRatioAssigned]
  constructor
  · unfold primaryRatioInit
    by_cases h1 : nm + 2 < k + 2
    · rw [if_pos h1]; exact ⟨_, rfl⟩
    rw [if_neg h1]
    by_cases h2 : nq + 2 < k + 2
    · rw [if_pos h2]; exact ⟨_, rfl⟩
    rw [if_neg h2]
    · simp only [pure_bind]
      cases Spline.init nm (some (plKnots nm k (Real.log mmin) (Real.log mmax))) none (Real.log mmin) (Real.log mmax) 4 with
      | error e => exact ⟨_, rfl⟩
      | ok s =>
        cases Spline.init nq (some (plKnots nq k 0 1)) none 0 1 4 with
        | error e => exact ⟨_, rfl⟩
        | ok s' => simp only [key, if_false]; exact ⟨_, rfl⟩
  · intro h1 h2
    have hok : ∀ (n : ℕ) (lo hi : ℝ), 4 ≤ n → ∃ s, Spline.init n (some (plKnots n 4 lo hi)) none lo hi 4 = .ok s := by
      intro n lo hi hn
      refine ⟨⟨4, n, lo, hi, plKnots n 4 lo hi⟩, ?_⟩
      unfold Spline.init
      simp only [pure_bind]
      rw [if_pos]
      · rfl
      · change (4 - 1) + (n + 2 - 4) + (4 - 1) = n + 4; omega
    obtain ⟨s1, e1⟩ := hok nm (Real.log mmin) (Real.log mmax) h1
    obtain ⟨s2, e2⟩ := hok nq 0 1 h2
    unfold primaryRatioInit
    rw [if_neg (by omega), if_neg (by omega)]
    simp only [pure_bind, e1, e2, key, if_false]
    rfl

end GW
end
