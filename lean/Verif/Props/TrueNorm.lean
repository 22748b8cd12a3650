import Verif.Lemmas.Trapezoid
import Verif.Props.SplineSmooth

/-! # Property C112: the true integral of the grid-normalised spline densities -/

open Finset
noncomputable section
open Classical
namespace GW

/-- a density whose log varies by at most `ε` over half a grid cell, divided by its trapezoid sum -/
theorem true_mass_log {g : ℝ → ℝ} {a b ε : ℝ} {n : ℕ} (hn : 2 ≤ n) (hab : a < b) (hg : ContinuousOn g (Set.Icc a b))
    (h : ∀ x ∈ Set.Icc a b, ∀ y ∈ Set.Icc a b, |x - y| ≤ (b - a) / ((n : ℝ) - 1) / 2 → |g x - g y| ≤ ε) :
    Real.exp (-ε) ≤ ∫ x in a..b, Real.exp (g x) * (1 / trapz n (fun j => Real.exp (g ((linspace a b n).get j))) (linspace a b n).get) ∧
    (∫ x in a..b, Real.exp (g x) * (1 / trapz n (fun j => Real.exp (g ((linspace a b n).get j))) (linspace a b n).get)) ≤ Real.exp ε := by
  have hT : 0 < trapz n (fun j => Real.exp (g ((linspace a b n).get j))) (linspace a b n).get :=
    trapz_pos hn (fun _ _ => Real.exp_pos _) (fun i _ => linspace_strictMono hab hn (Nat.lt_succ_self i))
  obtain ⟨h1, h2⟩ := trapz_halfcell (f := fun x => Real.exp (g x)) (lo := Real.exp (-ε)) (hi := Real.exp ε) (d := 0) hn hab
    (Real.continuous_exp.comp_continuousOn hg) (fun x hx y hy hxy => by
      have := abs_le.1 (h x hx y hy hxy)
      rw [← Real.exp_add, ← Real.exp_add, sub_zero, add_zero, Real.exp_le_exp, Real.exp_le_exp]
      exact ⟨by linarith, by linarith⟩)
  rw [zero_mul, sub_zero] at h1
  rw [zero_mul, add_zero] at h2
  rw [intervalIntegral.integral_mul_const, mul_one_div]
  exact ⟨(le_div_iff₀ hT).2 h1, (div_le_iff₀ hT).2 h2⟩

/-- **C112**, LogYBSpline.  The normalised density is normalised by a 1000-point trapezoid sum; its true integral over the
domain is 1 up to a factor `exp(±ε)`, with `ε = D (n-k+1) / 1998` and `D` the largest difference of neighbouring
coefficients.  No bound on the coefficients, the range or the number of functions. -/
theorem C112_logY (nDf k : ℕ) (a b : ℝ) (hk : 2 ≤ k) (hn : k ≤ nDf)
    (hgap : 1 / 1000000 ≤ (b - a) / ((nDf : ℝ) - k + 1))
    (s : Spline) (hs : Spline.init nDf none none a b k = .ok s)
    (c : ℕ → ℝ) (hc : ∀ i < nDf, -F.BIG < c i) (D : ℝ) (hD : ∀ i, i + 1 < nDf → |c (i + 1) - c i| ≤ D) :
    ∃ p : ℝ → ℝ, (∀ x, s.logYEval true (fun i => F.fin (c i)) x = F.fin (p x)) ∧
      Real.exp (-(D * ((nDf : ℝ) - k + 1) / 1998)) ≤ ∫ x in a..b, p x ∧
      (∫ x in a..b, p x) ≤ Real.exp (D * ((nDf : ℝ) - k + 1) / 1998) := by
  have h : DefaultOK nDf k a b s := ⟨hk, hn, hgap, hs⟩
  obtain ⟨hpos, hnorm⟩ := h.norm_eq c hc
  obtain ⟨ho, hN, hlo, hhi, -, -⟩ := init_default_eq (by omega) hn hs
  have hden := default_den_pos hn
  have hab := h.lt
  have hval := C10_logY_zero_outside_positive_inside nDf k a b hk hn hgap s hs true c hc
  have hfin : ∀ x, ∃ v : ℝ, s.logYEval true (fun i => F.fin (c i)) x = F.fin v := by
    intro x
    by_cases hx : a ≤ x ∧ x ≤ b
    · obtain ⟨v, -, hv⟩ := (hval x).1 hx; exact ⟨v, hv⟩
    · exact ⟨0, (hval x).2 (by rcases not_and_or.1 hx with h | h
                               · exact Or.inl (not_le.1 h)
                               · exact Or.inr (not_le.1 h))⟩
  choose p hp using hfin
  refine ⟨p, hp, ?_⟩
  have hev : ∀ x, einsum s.N (fun i => s.bBases i x) c = s.bEval false c x := fun x => by
    simp [Spline.bEval, bProject, bNorm]
  have hin : ∀ x ∈ Set.Icc a b, p x = Real.exp (s.bEval false c x) * (1 / trapz 1000
      (fun j => Real.exp (s.bEval false c ((linspace a b 1000).get j))) (linspace a b 1000).get) := by
    intro x hx
    have := hp x
    rw [Spline.logYEval, h.proj_in c hc x hx, hnorm, F.mul_fin, F.fin_inj] at this
    rw [← this, ← hN, hev, logYRaw, Spline.grid, hlo, hhi]
    simp only [hev, id]
    rfl
  have hint : ∫ x in a..b, p x = ∫ x in a..b, Real.exp (s.bEval false c x) * (1 / trapz 1000
      (fun j => Real.exp (s.bEval false c ((linspace a b 1000).get j))) (linspace a b 1000).get) := by
    refine intervalIntegral.integral_congr fun x hx => hin x ?_
    rwa [Set.uIcc_of_le hab.le] at hx
  rw [hint]
  refine true_mass_log (by norm_num) hab (C111_smooth nDf k a b hk hn hgap s hs false c).continuousOn ?_
  intro x hx y hy hxy
  have hD0 : 0 ≤ D := (abs_nonneg _).trans (hD 0 (by omega))
  refine (C111_lipschitz nDf k a b hk hn hgap s hs c D hD y x hy hx).trans ?_
  have hba : 0 < b - a := by linarith
  refine (mul_le_mul_of_nonneg_left hxy (div_nonneg hD0 (div_nonneg hba.le hden.le))).trans (le_of_eq ?_)
  rw [show (((1000 : ℕ) : ℝ) - 1) = 999 by norm_num]
  field_simp
  ring

/-- **C112**, LogXLogYBSpline.  The same on the 1500-point grid equally spaced in `x`: the error exponent is
`ε = D (n-k+1) (b-a) / (2998 a log(b/a))`. -/
theorem C112_logXlogY (nDf k : ℕ) (a b : ℝ) (ha : 0 < a) (hb : 0 < b) (hk : 2 ≤ k) (hn : k ≤ nDf)
    (hgap : 1 / 1000000 ≤ (Real.log b - Real.log a) / ((nDf : ℝ) - k + 1))
    (s : Spline) (hs : logXInit nDf none none a b k = .ok s)
    (c : ℕ → ℝ) (hc : ∀ i < nDf, -F.BIG < c i) (D : ℝ) (hD : ∀ i, i + 1 < nDf → |c (i + 1) - c i| ≤ D) :
    ∃ p : ℝ → ℝ, (∀ x, 0 < x → s.logXYEval true (fun i => F.fin (c i)) x = F.fin (p x)) ∧
      Real.exp (-(D * ((nDf : ℝ) - k + 1) * (b - a) / (2998 * a * Real.log (b / a)))) ≤ ∫ x in a..b, p x ∧
      (∫ x in a..b, p x) ≤ Real.exp (D * ((nDf : ℝ) - k + 1) * (b - a) / (2998 * a * Real.log (b / a))) := by
  have h : DefaultOK nDf k (Real.log a) (Real.log b) s := ⟨hk, hn, hgap, hs⟩
  obtain ⟨hpos, hnorm⟩ := h.xynorm_eq ha hb c hc
  obtain ⟨ho, hN, hlo, hhi, -, -⟩ := init_default_eq (by omega) hn hs
  have hden := default_den_pos hn
  have hlab := h.lt
  have hab : a < b := (Real.log_lt_log_iff ha hb).1 hlab
  have hval := C10_logXlogY_zero_outside_positive_inside nDf k a b ha hb hk hn hgap s hs true c hc
  have hfin : ∀ x, ∃ v : ℝ, 0 < x → s.logXYEval true (fun i => F.fin (c i)) x = F.fin v := by
    intro x
    by_cases hx : a ≤ x ∧ x ≤ b
    · obtain ⟨v, -, hv⟩ := (hval x (ha.trans_le hx.1)).1 hx; exact ⟨v, fun _ => hv⟩
    · exact ⟨0, fun h0 => (hval x h0).2 (by rcases not_and_or.1 hx with h | h
                                            · exact Or.inl (not_le.1 h)
                                            · exact Or.inr (not_le.1 h))⟩
  choose p hp using hfin
  refine ⟨p, hp, ?_⟩
  have hev : ∀ x, einsum s.N (fun i => s.bBases i x) c = s.bEval false c x := fun x => by
    simp [Spline.bEval, bProject, bNorm]
  have hlogmem : ∀ x ∈ Set.Icc a b, Real.log x ∈ Set.Icc (Real.log a) (Real.log b) := fun x hx =>
    ⟨Real.log_le_log ha hx.1, Real.log_le_log (ha.trans_le hx.1) hx.2⟩
  have hin : ∀ x ∈ Set.Icc a b, p x = Real.exp (s.bEval false c (Real.log x)) * (1 / trapz 1500
      (fun j => Real.exp (s.bEval false c (Real.log ((linspace a b 1500).get j)))) (linspace a b 1500).get) := by
    intro x hx
    have := hp x (ha.trans_le hx.1)
    rw [Spline.logXYEval, (h.xyproj c hc x).1 (hlogmem x hx), hnorm, F.mul_fin, F.fin_inj] at this
    rw [← this, hev, logYRaw, Spline.logXYGrid, hlo, hhi, Real.exp_log ha, Real.exp_log hb]
    simp only [hev]
    rfl
  have hint : ∫ x in a..b, p x = ∫ x in a..b, Real.exp (s.bEval false c (Real.log x)) * (1 / trapz 1500
      (fun j => Real.exp (s.bEval false c (Real.log ((linspace a b 1500).get j)))) (linspace a b 1500).get) := by
    refine intervalIntegral.integral_congr fun x hx => hin x ?_
    rwa [Set.uIcc_of_le hab.le] at hx
  rw [hint]
  have hD0 : 0 ≤ D := (abs_nonneg _).trans (hD 0 (by omega))
  have hlip : ∀ x ∈ Set.Icc a b, ∀ y ∈ Set.Icc a b, |Real.log x - Real.log y| ≤ |x - y| / a := by
    have key : ∀ x ∈ Set.Icc a b, ∀ y ∈ Set.Icc a b, y ≤ x → Real.log x - Real.log y ≤ (x - y) / a := by
      intro x hx y hy hxy
      have hy0 : 0 < y := ha.trans_le hy.1
      have hx0 : 0 < x := ha.trans_le hx.1
      rw [← Real.log_div hx0.ne' hy0.ne']
      refine (Real.log_le_sub_one_of_pos (div_pos hx0 hy0)).trans ?_
      rw [div_sub_one hy0.ne']
      exact div_le_div_of_nonneg_left (by linarith) ha hy.1
    intro x hx y hy
    rcases le_total y x with hxy | hxy
    · rw [abs_of_nonneg (sub_nonneg.2 hxy), abs_of_nonneg (sub_nonneg.2 (Real.log_le_log (ha.trans_le hy.1) hxy))]
      exact key x hx y hy hxy
    · rw [abs_sub_comm, abs_sub_comm x, abs_of_nonneg (sub_nonneg.2 hxy),
        abs_of_nonneg (sub_nonneg.2 (Real.log_le_log (ha.trans_le hx.1) hxy))]
      exact key y hy x hx hxy
  refine true_mass_log (g := fun x => s.bEval false c (Real.log x)) (by norm_num) hab ?_ ?_
  · refine (C111_smooth nDf k (Real.log a) (Real.log b) hk hn hgap s hs false c).continuousOn.comp
      (fun x hx => (Real.continuousAt_log (ha.trans_le hx.1).ne').continuousWithinAt) hlogmem
  intro x hx y hy hxy
  refine (C111_lipschitz nDf k _ _ hk hn hgap s hs c D hD _ _ (hlogmem y hy) (hlogmem x hx)).trans ?_
  have hba : 0 < Real.log b - Real.log a := by linarith
  have hba' : 0 < b - a := by linarith
  have h1 := (hlip x hx y hy).trans (div_le_div_of_nonneg_right hxy ha.le)
  refine (mul_le_mul_of_nonneg_left h1 (div_nonneg hD0 (div_nonneg hba.le hden.le))).trans (le_of_eq ?_)
  rw [Real.log_div hb.ne' ha.ne', show (((1500 : ℕ) : ℝ) - 1) = 1499 by norm_num]
  field_simp
  ring

/-- **C112**, BSpline with coefficients bounded below by `m > 0`: the true integral of the normalised spline is within
`D (n-k+1) / (1998 m)` of 1. -/
theorem C112_bspline (nDf k : ℕ) (a b : ℝ) (hk : 2 ≤ k) (hn : k ≤ nDf)
    (hgap : 1 / 1000000 ≤ (b - a) / ((nDf : ℝ) - k + 1))
    (s : Spline) (hs : Spline.init nDf none none a b k = .ok s)
    (c : ℕ → ℝ) (m D : ℝ) (hm : 0 < m) (hc : ∀ i < nDf, m ≤ c i) (hD : ∀ i, i + 1 < nDf → |c (i + 1) - c i| ≤ D) :
    |(∫ x in a..b, s.bEval true c x) - 1| ≤ D * ((nDf : ℝ) - k + 1) / (1998 * m) := by
  have h : DefaultOK nDf k a b s := ⟨hk, hn, hgap, hs⟩
  obtain ⟨ho, hN, hlo, hhi, -, -⟩ := init_default_eq (by omega) hn hs
  have hden := default_den_pos hn
  have hab := h.lt
  have hba : 0 < b - a := by linarith
  have hD0 : 0 ≤ D := (abs_nonneg _).trans (hD 0 (by omega))
  have hne : (range nDf).Nonempty := ⟨0, by simp; omega⟩
  have hlow : ∀ x ∈ Set.Icc a b, m ≤ s.bEval false c x := fun x hx =>
    (C04_convex_hull nDf k a b hk hn hgap s hs c m ((range nDf).sup' hne c)
      (fun i hi => ⟨hc i hi, Finset.le_sup' _ (mem_range.2 hi)⟩) x hx).1
  set T := trapz 1000 (fun j => s.bEval false c ((linspace a b 1000).get j)) (linspace a b 1000).get with hTdef
  have hT : m * (b - a) ≤ T := by
    have := trapz_halfcell (f := fun _ => m) (lo := 1) (hi := 1) (d := 0) (n := 1000) (by norm_num) hab
      continuousOn_const (fun x _ y _ _ => by simp)
    have e : ∫ _x in a..b, m = m * (b - a) := by simp [mul_comm]
    rw [e, one_mul, zero_mul, sub_zero, add_zero] at this
    have h2 : m * (b - a) ≤ trapz 1000 (fun _ => m) (linspace a b 1000).get := by linarith [this.1, this.2]
    refine h2.trans ?_
    rw [hTdef, trapz, trapz]
    refine mul_le_mul_of_nonneg_left (sum_le_sum fun j hj => ?_) (by norm_num)
    have hj' := mem_range.1 hj
    refine mul_le_mul_of_nonneg_left ?_ (sub_nonneg.2 ((linspace_strictMono hab (by norm_num)).monotone (Nat.le_succ j)))
    have l1 := hlow _ (linspace_mem hab.le (n := 1000) (by norm_num) (i := j + 1) (by omega))
    have l0 := hlow _ (linspace_mem hab.le (n := 1000) (by norm_num) (i := j) (by omega))
    linarith
  have hTpos : 0 < T := (mul_pos hm hba).trans_le hT
  have hev : ∀ x, s.bEval true c x = s.bEval false c x * (1 / T) := by
    intro x
    have e : ∀ u, s.bEval false c u = einsum s.N (fun i => s.bBases i u) c := fun u => by
      simp [Spline.bEval, bProject, bNorm]
    simp only [hTdef, e]
    simp only [Spline.bEval, bProject, bNorm, if_true, Spline.grid, hlo, hhi]
    rfl
  have hlip := C111_lipschitz nDf k a b hk hn hgap s hs c D hD
  obtain ⟨h1, h2⟩ := trapz_halfcell (f := fun x => s.bEval false c x) (lo := 1) (hi := 1)
    (d := D * ((nDf : ℝ) - k + 1) / 1998) (n := 1000) (by norm_num) hab
    (C111_smooth nDf k a b hk hn hgap s hs false c).continuousOn (fun x hx y hy hxy => by
      have := (hlip y x hy hx).trans ((mul_le_mul_of_nonneg_left hxy (div_nonneg hD0 (div_nonneg hba.le hden.le))).trans
        (le_of_eq (b := D * ((nDf : ℝ) - k + 1) / 1998) (by
          rw [show (((1000 : ℕ) : ℝ) - 1) = 999 by norm_num]
          field_simp
          ring)))
      have := abs_le.1 this
      exact ⟨by linarith, by linarith⟩)
  rw [← hTdef, one_mul] at h1 h2
  simp only [hev]
  rw [intervalIntegral.integral_mul_const, mul_one_div, div_sub_one hTpos.ne', abs_div, abs_of_pos hTpos, div_le_iff₀ hTpos]
  have h3 : |(∫ x in a..b, s.bEval false c x) - T| ≤ D * ((nDf : ℝ) - k + 1) / 1998 * (b - a) :=
    abs_le.2 ⟨by linarith, by linarith⟩
  refine h3.trans ?_
  have hq : 0 ≤ D * ((nDf : ℝ) - k + 1) / (1998 * m) := by positivity
  refine (le_of_eq ?_).trans (mul_le_mul_of_nonneg_left hT hq)
  field_simp

/-- twenty cubic functions on `[0,1]` with coefficients alternating between 1 and -1: the mass is within 2% of 1 -/
example : ∃ s : Spline, Spline.init 20 none none 0 1 4 = .ok s ∧ ∃ p : ℝ → ℝ,
    (∀ x, s.logYEval true (fun i => F.fin ((-1) ^ i)) x = F.fin (p x)) ∧
    Real.exp (-(34 / 1998)) ≤ ∫ x in (0:ℝ)..1, p x ∧ (∫ x in (0:ℝ)..1, p x) ≤ Real.exp (34 / 1998) := by
  obtain ⟨s, hs, -⟩ := C16_default_knots 20 4 0 1 (by norm_num) (by norm_num)
  refine ⟨s, hs, ?_⟩
  have hb : ∀ i : ℕ, |((-1 : ℝ)) ^ i| = 1 := fun i => by simp
  have hB : (1 : ℝ) < F.BIG := by norm_num [F.BIG]
  have := C112_logY 20 4 0 1 (by norm_num) (by norm_num) (by norm_num) s hs (fun i => (-1) ^ i)
    (fun i _ => by have := (abs_le.1 (hb i).le).1; linarith) 2 (fun i _ => by
      have h1 := abs_le.1 (hb i).le
      have h2 := abs_le.1 (hb (i + 1)).le
      rw [abs_le]; constructor <;> linarith [h1.1, h1.2, h2.1, h2.2])
  norm_num at this ⊢
  exact this

/-- a mass model on `[2,100]`: forty log-log functions, steps of at most 1 -/
example (c : ℕ → ℝ) (hc : ∀ i < 40, -F.BIG < c i) (hD : ∀ i, i + 1 < 40 → |c (i + 1) - c i| ≤ 1) :
    ∃ s : Spline, logXInit 40 none none 2 100 4 = .ok s ∧ ∃ p : ℝ → ℝ,
    (∀ x, 0 < x → s.logXYEval true (fun i => F.fin (c i)) x = F.fin (p x)) ∧
    (∫ x in (2:ℝ)..100, p x) ≤ Real.exp (3626 / (5996 * Real.log 50)) := by
  obtain ⟨s, hs, -⟩ := C16_default_knots 40 4 (Real.log 2) (Real.log 100) (by norm_num) (by norm_num)
  refine ⟨s, hs, ?_⟩
  have hl : (1 / 2 : ℝ) ≤ Real.log 100 - Real.log 2 := by
    rw [← Real.log_div (by norm_num) (by norm_num)]
    have := Real.one_sub_inv_le_log_of_pos (show (0:ℝ) < 100 / 2 by norm_num)
    norm_num at this ⊢
    linarith
  obtain ⟨p, hp, -, h2⟩ := C112_logXlogY 40 4 2 100 (by norm_num) (by norm_num) (by norm_num) (by norm_num)
    (by rw [le_div_iff₀ (by norm_num)]; norm_num; linarith) s hs c hc 1 hD
  refine ⟨p, hp, h2.trans (le_of_eq ?_)⟩
  norm_num

end GW
end
