import Verif.Props.SplineSmooth
import Mathlib.Analysis.Convex.SpecificFunctions.Basic
import Mathlib.Analysis.SpecialFunctions.Pow.Real

/-! # Properties C113, C114: what the density determines about the coefficients, and how it depends on them -/

open Finset
noncomputable section
open Classical
namespace GW

/-- B-splines of any order on simple knots are linearly independent on `[t_k, t_n)` -/
theorem bsp_indep (k : ℕ) : ∀ (t : ℕ → ℝ), (∀ j, knotEps ≤ t (j + 1) - t j) → ∀ (n : ℕ) (c : ℕ → ℝ), k + 1 ≤ n →
    (∀ x, t k ≤ x → x < t n → ∑ i ∈ range n, bsp t x (k + 1) i * c i = 0) → ∀ i < n, c i = 0 := by
  induction k with
  | zero =>
    intro t ht n c _ h i hi
    have hm : StrictMono t := strictMono_nat_of_lt_succ fun j => by have := ht j; have := knotEps_pos; linarith
    have h0 := h (t i) (hm.monotone (Nat.zero_le i)) (hm hi)
    rw [sum_eq_single_of_mem i (mem_range.2 hi)] at h0
    · have hg := ht i
      have hp := knotEps_pos
      rw [bsp, basis_one, if_neg (not_lt.2 hg), if_pos ⟨le_rfl, hm (Nat.lt_succ_self i)⟩] at h0
      have hne : t (i + 1) - t i ≠ 0 := by intro hz; rw [hz] at hg; linarith
      have e : (t (i + (0 + 1)) - t i) / ((0 + 1 : ℕ) : ℝ) * (1 / (t (i + 1) - t i)) = 1 := by
        simp; field_simp
      rwa [e, one_mul] at h0
    · intro j _ hj
      have : basis t (t i) (0 + 1) j = 0 := by
        rw [basis_one]
        split_ifs with h1 h2
        · rfl
        · exfalso
          rcases lt_or_gt_of_ne hj with hlt | hgt
          · exact absurd h2.2 (not_lt.2 (hm.monotone (Nat.succ_le_of_lt hlt)))
          · exact absurd h2.1 (not_le.2 (hm hgt))
        · rfl
      rw [bsp, this, mul_zero, zero_mul]
  | succ k ih =>
    intro t ht n c hn h
    have hm : StrictMono t := strictMono_nat_of_lt_succ fun j => by have := ht j; have := knotEps_pos; linarith
    obtain ⟨n, rfl⟩ : ∃ m, n = m + 1 := ⟨n - 1, by omega⟩
    have hsk : ∀ i m, SimpleKnots t i m := fun i m j _ _ => ht j
    -- the sum's right derivative vanishes
    have hder : ∀ x, t (k + 1) ≤ x → x < t (n + 1) →
        ∑ i ∈ range (n + 1), (basis t x (k + 1) i - basis t x (k + 1) (i + 1)) * c i = 0 := by
      intro x h1 h2
      have hd : HasDerivWithinAt (fun y => ∑ i ∈ range (n + 1), bsp t y (k + 2) i * c i)
          (∑ i ∈ range (n + 1), (basis t x (k + 1) i - basis t x (k + 1) (i + 1)) * c i) (Set.Ici x) x := by
        refine HasDerivWithinAt.fun_sum fun i _ => ?_
        have hg := (hsk i (k + 2)).gap (k + 2) (by omega) le_rfl
        have hne : t (i + (k + 2)) - t i ≠ 0 := by
          have := knotEps_pos; intro h0; rw [h0] at hg; linarith
        have := ((basis_right_deriv k i (hsk i _) x).const_mul ((t (i + (k + 2)) - t i) / ((k + 2 : ℕ) : ℝ))).mul_const (c i)
        refine this.congr_deriv ?_
        push_cast
        have : (k : ℝ) + 2 ≠ 0 := by positivity
        field_simp
      have hz : HasDerivWithinAt (fun _ : ℝ => (0 : ℝ)) 0 (Set.Ici x) x := hasDerivWithinAt_const _ _ _
      refine (uniqueDiffWithinAt_Ici x).eq_deriv _ hd (hz.congr_of_eventuallyEq ?_ (h x h1 h2))
      filter_upwards [self_mem_nhdsWithin, mem_nhdsWithin_of_mem_nhds (Iio_mem_nhds h2)] with y hy1 hy2
      exact h y (h1.trans hy1) hy2
    -- so neighbouring coefficients agree
    have hstep : ∀ i < n, c (i + 1) - c i = 0 := by
      have := ih (fun j => t (j + 1)) (fun j => ht (j + 1)) n
        (fun i => (c (i + 1) - c i) * (((k + 1 : ℕ) : ℝ) / (t (i + (k + 1) + 1) - t (i + 1)))) (by omega) (fun x h1 h2 => by
          have hd := hder x h1 h2
          rw [show (∑ i ∈ range (n + 1), (basis t x (k + 1) i - basis t x (k + 1) (i + 1)) * c i) =
            ∑ i ∈ range (n + 1), c i * (basis t x (k + 1) i - basis t x (k + 1) (i + 1)) from
            sum_congr rfl fun i _ => mul_comm _ _, sum_by_parts,
            basis_eq_zero_of_ge hm.monotone (k + 1) 0 (by rw [zero_add]; exact h1),
            basis_eq_zero_of_lt hm.monotone (k + 1) (n + 1) h2] at hd
          simp only [mul_zero, sub_zero, zero_add] at hd
          rw [← hd]
          refine sum_congr rfl fun i _ => ?_
          rw [bsp, basis_knot_shift (t := t) (fun _ => rfl)]
          have hg := (hsk (i + 1) (k + 1)).gap (k + 1) (by omega) le_rfl
          have hne : t (i + (k + 1) + 1) - t (i + 1) ≠ 0 := by
            have := knotEps_pos; intro h0
            rw [show i + 1 + (k + 1) = i + (k + 1) + 1 by ring, h0] at hg; linarith
          have : ((k + 1 : ℕ) : ℝ) ≠ 0 := by positivity
          field_simp)
      intro i hi
      have hi' := this i hi
      have hg := (hsk (i + 1) (k + 1)).gap (k + 1) (by omega) le_rfl
      have hne : 0 < t (i + (k + 1) + 1) - t (i + 1) := by
        have := knotEps_pos
        rw [show i + (k + 1) + 1 = i + 1 + (k + 1) by ring]; linarith
      exact (mul_eq_zero.1 hi').resolve_right (div_pos (by positivity) hne).ne'
    have hconst : ∀ i < n + 1, c i = c 0 := by
      intro i
      induction i with
      | zero => intro _; rfl
      | succ i ihi => intro hi; rw [← ihi (by omega)]; linarith [hstep i (by omega)]
    have h0 := h (t (k + 1)) le_rfl (hm (by omega))
    rw [sum_congr rfl fun i hi => by rw [hconst i (mem_range.1 hi)], ← sum_mul] at h0
    have pu := partition_of_unity_core (x := t (k + 1)) hm.monotone (fun i => Or.inr (ht i)) (k + 1) (n - k) le_rfl (hm (by omega))
    rw [show n - k + (k + 1) = n + 1 by omega] at pu
    rw [pu, one_mul] at h0
    intro i hi
    rw [hconst i hi, h0]

/-- on the domain a default spline vanishes only if its coefficients do -/
theorem DefaultOK.indep {nDf k a b s} (h : DefaultOK nDf k a b s) (c : ℕ → ℝ) (h0 : ∀ x ∈ Set.Icc a b, s.bEval false c x = 0) :
    ∀ i < nDf, c i = 0 := by
  have hk := h.hk
  have hn := h.hn
  obtain ⟨k, rfl⟩ : ∃ j, k = j + 1 := ⟨k - 1, by omega⟩
  refine bsp_indep k s.knots.get (fun j => h.simple j 1 j le_rfl (by omega)) nDf c hn fun x h1 h2 => ?_
  have hfirst := init_default_first (by omega) h.hn h.hs
  have hlast := init_default_last (by omega) h.hn h.hs
  rw [show k + 1 - 1 = k by omega] at hfirst
  rw [hfirst] at h1
  rw [hlast] at h2
  rw [← h.eval_eq c x ⟨h1, h2.le⟩]
  exact h0 x ⟨h1, h2.le⟩

theorem DefaultOK.eval_sub {nDf k a b s} (_ : DefaultOK nDf k a b s) (c d : ℕ → ℝ) (x : ℝ) :
    s.bEval false (fun i => c i - d i) x = s.bEval false c x - s.bEval false d x := by
  simp [Spline.bEval, bProject, bNorm, einsum, mul_sub]

theorem DefaultOK.eval_const {nDf k a b s} (h : DefaultOK nDf k a b s) (m x : ℝ) (hx : x ∈ Set.Icc a b) :
    s.bEval false (fun _ => m) x = m := by
  have := C04_convex_hull nDf k a b h.hk h.hn h.hgap s h.hs (fun _ => m) m m (fun _ _ => ⟨le_rfl, le_rfl⟩) x hx
  exact le_antisymm this.2 this.1

/-- the value of the normalised log-spline density on the domain -/
theorem DefaultOK.logY_value {nDf k a b s} (h : DefaultOK nDf k a b s) (c : ℕ → ℝ) (hc : ∀ i < nDf, -F.BIG < c i) (x : ℝ)
    (hx : x ∈ Set.Icc a b) : s.logYEval true (fun i => F.fin (c i)) x = F.fin (Real.exp (s.bEval false c x) * (1 / logYRaw s s.grid id c)) := by
  have hN := (init_default_eq (by have := h.hk; omega) h.hn h.hs).2.1
  rw [Spline.logYEval, h.proj_in c hc x hx, (h.norm_eq c hc).2, F.mul_fin]
  simp [Spline.bEval, bProject, bNorm, hN]

theorem DefaultOK.logXY_value {nDf k a b s} (h : DefaultOK nDf k (Real.log a) (Real.log b) s) (ha : 0 < a) (hb : 0 < b) (c : ℕ → ℝ)
    (hc : ∀ i < nDf, -F.BIG < c i) (x : ℝ) (hx : x ∈ Set.Icc a b) :
    s.logXYEval true (fun i => F.fin (c i)) x = F.fin (Real.exp (s.bEval false c (Real.log x)) * (1 / logYRaw s s.logXYGrid Real.log c)) := by
  have hx0 : 0 < x := ha.trans_le hx.1
  rw [Spline.logXYEval, (h.xyproj c hc x).1 ⟨Real.log_le_log ha hx.1, Real.log_le_log hx0 hx.2⟩, (h.xynorm_eq ha hb c hc).2, F.mul_fin]
  simp [Spline.bEval, bProject, bNorm]

/-- two positive multiples of exponentials of splines agree on the domain exactly when the coefficients differ by a constant -/
theorem DefaultOK.shift_of_eq {nDf k a b s} (h : DefaultOK nDf k a b s) (c d : ℕ → ℝ) {u v : ℝ} (hu : 0 < u) (hv : 0 < v)
    (he : ∀ x ∈ Set.Icc a b, Real.exp (s.bEval false c x) * (1 / u) = Real.exp (s.bEval false d x) * (1 / v)) :
    ∃ m : ℝ, ∀ i < nDf, d i = c i + m := by
  refine ⟨Real.log v - Real.log u, fun i hi => ?_⟩
  have hz := h.indep (fun i => (d i - c i) - (Real.log v - Real.log u)) (fun x hx => by
    rw [h.eval_sub (fun i => d i - c i) (fun _ => Real.log v - Real.log u), h.eval_sub d c, h.eval_const _ x hx]
    have := congrArg Real.log (he x hx)
    rw [Real.log_mul (Real.exp_pos _).ne' (by positivity), Real.log_mul (Real.exp_pos _).ne' (by positivity), Real.log_exp, Real.log_exp,
      one_div, one_div, Real.log_inv, Real.log_inv] at this
    linarith) i hi
  linarith

theorem DefaultOK.eval_congr {nDf k a b s} (h : DefaultOK nDf k a b s) {c d : ℕ → ℝ} (hcd : ∀ i < nDf, c i = d i) (x : ℝ) :
    s.bEval false c x = s.bEval false d x := by
  have hN := (init_default_eq (by have := h.hk; omega) h.hn h.hs).2.1
  simp only [Spline.bEval, bProject, bNorm, einsum, hN]
  simp only [Bool.false_eq_true, if_false, mul_one]
  exact sum_congr rfl fun i hi => by rw [hcd i (mem_range.1 hi)]

theorem DefaultOK.eval_shift {nDf k a b s} (h : DefaultOK nDf k a b s) {c d : ℕ → ℝ} {m : ℝ} (hcd : ∀ i < nDf, d i = c i + m) (x : ℝ)
    (hx : x ∈ Set.Icc a b) : s.bEval false d x = s.bEval false c x + m := by
  have e : s.bEval false d x = s.bEval false (fun i => c i - (fun _ => -m) i) x := h.eval_congr (fun i hi => by rw [hcd i hi]; ring) x
  rw [e, h.eval_sub, h.eval_const _ x hx]
  ring

/-- the normalisation sum is multiplied by `exp m` when `m` is added to every coefficient -/
theorem DefaultOK.raw_shift {nDf k a b s} (h : DefaultOK nDf k a b s) {c d : ℕ → ℝ} {m : ℝ} (hcd : ∀ i < nDf, d i = c i + m)
    (g : Arr ℝ) (f : ℝ → ℝ) (hg : ∀ j < g.len, f (g.get j) ∈ Set.Icc a b) : logYRaw s g f d = logYRaw s g f c * Real.exp m := by
  have hN := (init_default_eq (by have := h.hk; omega) h.hn h.hs).2.1
  have ev : ∀ (c : ℕ → ℝ) x, einsum s.N (fun i => s.bBases i x) c = s.bEval false c x := by
    intro c x; simp [Spline.bEval, bProject, bNorm]
  simp only [logYRaw, ev]
  rw [trapz, trapz, mul_assoc, sum_mul]
  congr 1
  refine sum_congr rfl fun j hj => ?_
  have hj' : j + 1 < g.len := by have := mem_range.1 hj; omega
  rw [h.eval_shift hcd _ (hg j (by omega)), h.eval_shift hcd _ (hg (j + 1) hj'), Real.exp_add, Real.exp_add]
  ring

/-! ## C113 -/

/-- **C113**, linear splines.  Two coefficient vectors give the same un-normalised spline exactly when they are equal. -/
theorem C113_bspline (nDf k : ℕ) (a b : ℝ) (hk : 2 ≤ k) (hn : k ≤ nDf) (hgap : 1 / 1000000 ≤ (b - a) / ((nDf : ℝ) - k + 1))
    (s : Spline) (hs : Spline.init nDf none none a b k = .ok s) (c d : ℕ → ℝ) :
    (∀ x ∈ Set.Icc a b, s.bEval false c x = s.bEval false d x) ↔ ∀ i < nDf, c i = d i := by
  have h : DefaultOK nDf k a b s := ⟨hk, hn, hgap, hs⟩
  constructor
  · intro he i hi
    have := h.indep (fun i => c i - d i) (fun x hx => by rw [h.eval_sub, he x hx, sub_self]) i hi
    linarith
  · intro hcd x _
    exact h.eval_congr hcd x

/-- **C113**, normalised linear splines.  Two vectors of positive coefficients give the same density exactly when one is a positive multiple of the other. -/
theorem C113_bspline_normalised (nDf k : ℕ) (a b : ℝ) (hk : 2 ≤ k) (hn : k ≤ nDf) (hgap : 1 / 1000000 ≤ (b - a) / ((nDf : ℝ) - k + 1))
    (s : Spline) (hs : Spline.init nDf none none a b k = .ok s) (c d : ℕ → ℝ)
    (hc : ∀ i < nDf, 0 < c i) (hd : ∀ i < nDf, 0 < d i) :
    (∀ x ∈ Set.Icc a b, s.bEval true c x = s.bEval true d x) ↔ ∃ r : ℝ, 0 < r ∧ ∀ i < nDf, d i = r * c i := by
  have h : DefaultOK nDf k a b s := ⟨hk, hn, hgap, hs⟩
  have hN := (init_default_eq (by omega) hn hs).2.1
  have pc := raw_integral_pos nDf k a b hk hn hgap s hs c hc
  have pd := raw_integral_pos nDf k a b hk hn hgap s hs d hd
  have e : ∀ (c : ℕ → ℝ) x, s.bEval true c x = s.bEval false c x *
      (1 / trapz s.grid.len (fun j => einsum s.N (fun i => s.bBases i (s.grid.get j)) c) s.grid.get) := by
    intro c x; simp [Spline.bEval, bProject, bNorm]
  constructor
  · intro he
    simp only [e] at he
    generalize trapz s.grid.len (fun j => einsum s.N (fun i => s.bBases i (s.grid.get j)) c) s.grid.get = u at *
    generalize trapz s.grid.len (fun j => einsum s.N (fun i => s.bBases i (s.grid.get j)) d) s.grid.get = v at *
    refine ⟨v / u, div_pos pd pc, fun i hi => ?_⟩
    have := (C113_bspline nDf k a b hk hn hgap s hs d fun i => v / u * c i).1 (fun x hx => by
      have h1 := C05_linear s c c (v / u) 0 x
      simp only [zero_mul, add_zero] at h1
      rw [h1]
      have := he x hx
      field_simp at this ⊢
      linarith)
    exact this i hi
  · rintro ⟨r, hr, hdc⟩ x _
    rw [← C05_scale_free s c r x hr.ne']
    have e2 : ∀ y, einsum s.N (fun i => s.bBases i y) d = einsum s.N (fun i => s.bBases i y) fun i => r * c i := by
      intro y; unfold einsum; exact sum_congr rfl fun i hi => by rw [hdc i (by rw [← hN]; exact mem_range.1 hi)]
    simp only [Spline.bEval, bProject, bNorm, e2]

/-- **C113**, LogYBSpline.  Two coefficient vectors give the same normalised density exactly when they differ by a constant. -/
theorem C113_logY (nDf k : ℕ) (a b : ℝ) (hk : 2 ≤ k) (hn : k ≤ nDf) (hgap : 1 / 1000000 ≤ (b - a) / ((nDf : ℝ) - k + 1))
    (s : Spline) (hs : Spline.init nDf none none a b k = .ok s) (c d : ℕ → ℝ)
    (hc : ∀ i < nDf, -F.BIG < c i) (hd : ∀ i < nDf, -F.BIG < d i) :
    (∀ x ∈ Set.Icc a b, s.logYEval true (fun i => F.fin (c i)) x = s.logYEval true (fun i => F.fin (d i)) x) ↔
      ∃ m : ℝ, ∀ i < nDf, d i = c i + m := by
  have h : DefaultOK nDf k a b s := ⟨hk, hn, hgap, hs⟩
  obtain ⟨-, -, hlo, hhi, -, -⟩ := init_default_eq (by omega) hn hs
  have hg : s.grid = linspace a b 1000 := by rw [Spline.grid, hlo, hhi]
  constructor
  · intro he
    refine h.shift_of_eq c d (h.norm_eq c hc).1 (h.norm_eq d hd).1 fun x hx => ?_
    have := he x hx
    rwa [h.logY_value c hc x hx, h.logY_value d hd x hx, F.fin_inj] at this
  · rintro ⟨m, hm⟩ x hx
    rw [h.logY_value c hc x hx, h.logY_value d hd x hx, h.eval_shift hm x hx,
      h.raw_shift hm s.grid id (fun j hj => by
        rw [hg] at hj ⊢; exact linspace_mem h.lt.le (by norm_num) hj), Real.exp_add]
    have := (h.norm_eq c hc).1.ne'
    have := (Real.exp_pos m).ne'
    rw [F.fin_inj]
    field_simp

/-- **C113**, LogXLogYBSpline. -/
theorem C113_logXlogY (nDf k : ℕ) (a b : ℝ) (ha : 0 < a) (hb : 0 < b) (hk : 2 ≤ k) (hn : k ≤ nDf)
    (hgap : 1 / 1000000 ≤ (Real.log b - Real.log a) / ((nDf : ℝ) - k + 1))
    (s : Spline) (hs : logXInit nDf none none a b k = .ok s) (c d : ℕ → ℝ)
    (hc : ∀ i < nDf, -F.BIG < c i) (hd : ∀ i < nDf, -F.BIG < d i) :
    (∀ x ∈ Set.Icc a b, s.logXYEval true (fun i => F.fin (c i)) x = s.logXYEval true (fun i => F.fin (d i)) x) ↔
      ∃ m : ℝ, ∀ i < nDf, d i = c i + m := by
  have h : DefaultOK nDf k (Real.log a) (Real.log b) s := ⟨hk, hn, hgap, hs⟩
  obtain ⟨-, -, hlo, hhi, -, -⟩ := init_default_eq (by omega) hn hs
  have hab : a < b := (Real.log_lt_log_iff ha hb).1 h.lt
  have hg : s.logXYGrid = linspace a b 1500 := by rw [Spline.logXYGrid, hlo, hhi, Real.exp_log ha, Real.exp_log hb]
  have hlog : ∀ x ∈ Set.Icc a b, Real.log x ∈ Set.Icc (Real.log a) (Real.log b) := fun x hx =>
    ⟨Real.log_le_log ha hx.1, Real.log_le_log (ha.trans_le hx.1) hx.2⟩
  constructor
  · intro he
    refine h.shift_of_eq c d (h.xynorm_eq ha hb c hc).1 (h.xynorm_eq ha hb d hd).1 fun y hy => ?_
    have hx : Real.exp y ∈ Set.Icc a b := by
      rw [← Real.exp_log ha, ← Real.exp_log hb]
      exact ⟨Real.exp_le_exp.2 hy.1, Real.exp_le_exp.2 hy.2⟩
    have := he _ hx
    rwa [h.logXY_value ha hb c hc _ hx, h.logXY_value ha hb d hd _ hx, F.fin_inj, Real.log_exp] at this
  · rintro ⟨m, hm⟩ x hx
    rw [h.logXY_value ha hb c hc x hx, h.logXY_value ha hb d hd x hx, h.eval_shift hm _ (hlog x hx),
      h.raw_shift hm s.logXYGrid Real.log (fun j hj => hlog _ (by
        rw [hg] at hj ⊢; exact linspace_mem hab.le (by norm_num) hj)), Real.exp_add]
    have := (h.xynorm_eq ha hb c hc).1.ne'
    have := (Real.exp_pos m).ne'
    rw [F.fin_inj]
    field_simp

/-! ## C114 -/

/-- log-sum-exp is convex -/
theorem trapz_exp_convex {n : ℕ} {x u v : ℕ → ℝ} {θ : ℝ} (h0 : 0 ≤ θ) (h1 : θ ≤ 1) (hx : ∀ i, i + 1 < n → x i ≤ x (i + 1))
    (hu : 0 < trapz n (fun j => Real.exp (u j)) x) (hv : 0 < trapz n (fun j => Real.exp (v j)) x) :
    trapz n (fun j => Real.exp (θ * u j + (1 - θ) * v j)) x ≤
      trapz n (fun j => Real.exp (u j)) x ^ θ * trapz n (fun j => Real.exp (v j)) x ^ (1 - θ) := by
  set U := trapz n (fun j => Real.exp (u j)) x with hU
  set V := trapz n (fun j => Real.exp (v j)) x with hV
  have hK : 0 < U ^ θ * V ^ (1 - θ) := mul_pos (Real.rpow_pos_of_pos hu _) (Real.rpow_pos_of_pos hv _)
  have hpt : ∀ j, Real.exp (θ * u j + (1 - θ) * v j) ≤ (θ / U * Real.exp (u j) + (1 - θ) / V * Real.exp (v j)) * (U ^ θ * V ^ (1 - θ)) := by
    intro j
    have hc := convexOn_exp.2 (Set.mem_univ (u j - Real.log U)) (Set.mem_univ (v j - Real.log V)) h0 (sub_nonneg.2 h1) (by ring)
    simp only [smul_eq_mul, Real.exp_sub, Real.exp_log hu, Real.exp_log hv] at hc
    have e : Real.exp (θ * u j + (1 - θ) * v j) =
        Real.exp (θ * (u j - Real.log U) + (1 - θ) * (v j - Real.log V)) * (U ^ θ * V ^ (1 - θ)) := by
      rw [Real.rpow_def_of_pos hu, Real.rpow_def_of_pos hv, ← Real.exp_add, ← Real.exp_add]
      congr 1; ring
    rw [e]
    refine mul_le_mul_of_nonneg_right (hc.trans (le_of_eq ?_)) hK.le
    ring
  have hnn := trapz_nonneg (n := n) (y := fun j => (θ / U * Real.exp (u j) + (1 - θ) / V * Real.exp (v j)) * (U ^ θ * V ^ (1 - θ)) -
      Real.exp (θ * u j + (1 - θ) * v j)) (x := x) (fun i _ => sub_nonneg.2 (hpt i)) hx
  have hsum := trapz_add n (fun j => Real.exp (θ * u j + (1 - θ) * v j))
    (fun j => (θ / U * Real.exp (u j) + (1 - θ) / V * Real.exp (v j)) * (U ^ θ * V ^ (1 - θ)) - Real.exp (θ * u j + (1 - θ) * v j)) x
  simp only [add_sub_cancel] at hsum
  rw [trapz_mul_right, trapz_add, trapz_smul, trapz_smul, ← hU, ← hV, div_mul_cancel₀ _ hu.ne', div_mul_cancel₀ _ hv.ne'] at hsum
  linarith

theorem DefaultOK.big_mix {nDf : ℕ} {c d : ℕ → ℝ} {θ : ℝ} (h0 : 0 ≤ θ) (h1 : θ ≤ 1) (hc : ∀ i < nDf, -F.BIG < c i)
    (hd : ∀ i < nDf, -F.BIG < d i) : ∀ i < nDf, -F.BIG < θ * c i + (1 - θ) * d i := by
  intro i hi
  have := hc i hi
  have := hd i hi
  rcases h0.eq_or_lt with rfl | h0
  · linarith
  · nlinarith

/-- the two exponents and the normalisation sums combine -/
theorem logconcave_core {A B T U V W θ : ℝ} (hU : 0 < U) (hV : 0 < V) (hW : 0 < W) (hT : T = θ * A + (1 - θ) * B)
    (hle : W ≤ U ^ θ * V ^ (1 - θ)) :
    (Real.exp A * (1 / U)) ^ θ * (Real.exp B * (1 / V)) ^ (1 - θ) ≤ Real.exp T * (1 / W) := by
  rw [Real.mul_rpow (Real.exp_pos _).le (by positivity), Real.mul_rpow (Real.exp_pos _).le (by positivity), ← Real.exp_mul, ← Real.exp_mul,
    one_div, one_div, Real.inv_rpow hU.le, Real.inv_rpow hV.le]
  have e : Real.exp (A * θ) * (U ^ θ)⁻¹ * (Real.exp (B * (1 - θ)) * (V ^ (1 - θ))⁻¹) = Real.exp T * (1 / (U ^ θ * V ^ (1 - θ))) := by
    rw [hT, Real.exp_add, mul_comm A, mul_comm B, one_div, mul_inv]; ring
  rw [e]
  exact mul_le_mul_of_nonneg_left (one_div_le_one_div_of_le hW hle) (Real.exp_pos _).le

/-- **C114**, LogYBSpline.  At every point of the domain the normalised density is a log-concave function of the coefficients. -/
theorem C114_logY_concave (nDf k : ℕ) (a b : ℝ) (hk : 2 ≤ k) (hn : k ≤ nDf) (hgap : 1 / 1000000 ≤ (b - a) / ((nDf : ℝ) - k + 1))
    (s : Spline) (hs : Spline.init nDf none none a b k = .ok s) (c d : ℕ → ℝ)
    (hc : ∀ i < nDf, -F.BIG < c i) (hd : ∀ i < nDf, -F.BIG < d i) (θ : ℝ) (h0 : 0 ≤ θ) (h1 : θ ≤ 1) (x : ℝ) (hx : x ∈ Set.Icc a b) :
    ∃ p q r : ℝ, s.logYEval true (fun i => F.fin (c i)) x = F.fin p ∧ s.logYEval true (fun i => F.fin (d i)) x = F.fin q ∧
      s.logYEval true (fun i => F.fin (θ * c i + (1 - θ) * d i)) x = F.fin r ∧ 0 < p ∧ 0 < q ∧ p ^ θ * q ^ (1 - θ) ≤ r := by
  have h : DefaultOK nDf k a b s := ⟨hk, hn, hgap, hs⟩
  obtain ⟨-, hN, hlo, hhi, -, -⟩ := init_default_eq (by omega) hn hs
  have hg : s.grid = linspace a b 1000 := by rw [Spline.grid, hlo, hhi]
  have hm := DefaultOK.big_mix h0 h1 hc hd
  have hU := (h.norm_eq c hc).1
  have hV := (h.norm_eq d hd).1
  refine ⟨_, _, _, h.logY_value c hc x hx, h.logY_value d hd x hx, h.logY_value _ hm x hx, mul_pos (Real.exp_pos _) (one_div_pos.2 hU),
    mul_pos (Real.exp_pos _) (one_div_pos.2 hV), ?_⟩
  refine logconcave_core hU hV (h.norm_eq _ hm).1 (C05_linear s c d θ (1 - θ) x) ?_
  have := trapz_exp_convex (n := s.grid.len) (x := s.grid.get)
    (u := fun j => einsum s.N (fun i => s.bBases i (id (s.grid.get j))) c) (v := fun j => einsum s.N (fun i => s.bBases i (id (s.grid.get j))) d)
    h0 h1 (fun i _ => by rw [hg]; exact (linspace_strictMono h.lt (by norm_num) (Nat.lt_succ_self i)).le) hU hV
  refine le_trans (le_of_eq ?_) this
  simp only [logYRaw, einsum_linear]

/-- **C114**, LogXLogYBSpline. -/
theorem C114_logXlogY_concave (nDf k : ℕ) (a b : ℝ) (ha : 0 < a) (hb : 0 < b) (hk : 2 ≤ k) (hn : k ≤ nDf)
    (hgap : 1 / 1000000 ≤ (Real.log b - Real.log a) / ((nDf : ℝ) - k + 1))
    (s : Spline) (hs : logXInit nDf none none a b k = .ok s) (c d : ℕ → ℝ)
    (hc : ∀ i < nDf, -F.BIG < c i) (hd : ∀ i < nDf, -F.BIG < d i) (θ : ℝ) (h0 : 0 ≤ θ) (h1 : θ ≤ 1) (x : ℝ) (hx : x ∈ Set.Icc a b) :
    ∃ p q r : ℝ, s.logXYEval true (fun i => F.fin (c i)) x = F.fin p ∧ s.logXYEval true (fun i => F.fin (d i)) x = F.fin q ∧
      s.logXYEval true (fun i => F.fin (θ * c i + (1 - θ) * d i)) x = F.fin r ∧ 0 < p ∧ 0 < q ∧ p ^ θ * q ^ (1 - θ) ≤ r := by
  have h : DefaultOK nDf k (Real.log a) (Real.log b) s := ⟨hk, hn, hgap, hs⟩
  obtain ⟨-, hN, hlo, hhi, -, -⟩ := init_default_eq (by omega) hn hs
  have hab : a < b := (Real.log_lt_log_iff ha hb).1 h.lt
  have hg : s.logXYGrid = linspace a b 1500 := by rw [Spline.logXYGrid, hlo, hhi, Real.exp_log ha, Real.exp_log hb]
  have hm := DefaultOK.big_mix h0 h1 hc hd
  have hU := (h.xynorm_eq ha hb c hc).1
  have hV := (h.xynorm_eq ha hb d hd).1
  refine ⟨_, _, _, h.logXY_value ha hb c hc x hx, h.logXY_value ha hb d hd x hx, h.logXY_value ha hb _ hm x hx, mul_pos (Real.exp_pos _) (one_div_pos.2 hU),
    mul_pos (Real.exp_pos _) (one_div_pos.2 hV), ?_⟩
  refine logconcave_core hU hV (h.xynorm_eq ha hb _ hm).1 (C05_linear s c d θ (1 - θ) (Real.log x)) ?_
  have := trapz_exp_convex (n := s.logXYGrid.len) (x := s.logXYGrid.get)
    (u := fun j => einsum s.N (fun i => s.bBases i (Real.log (s.logXYGrid.get j))) c)
    (v := fun j => einsum s.N (fun i => s.bBases i (Real.log (s.logXYGrid.get j))) d)
    h0 h1 (fun i _ => by rw [hg]; exact (linspace_strictMono hab (by norm_num) (Nat.lt_succ_self i)).le) hU hV
  refine le_trans (le_of_eq ?_) this
  simp only [logYRaw, einsum_linear]

theorem DefaultOK.raw_pos {nDf k a b s} (h : DefaultOK nDf k a b s) (c : ℕ → ℝ) : 0 < logYRaw s s.grid id c := by
  obtain ⟨-, -, hlo, hhi, -, -⟩ := init_default_eq (by have := h.hk; omega) h.hn h.hs
  have hg : s.grid = linspace a b 1000 := by rw [Spline.grid, hlo, hhi]
  rw [logYRaw, hg]
  exact trapz_pos (by change 2 ≤ 1000; norm_num) (fun _ _ => Real.exp_pos _) (fun i _ => linspace_strictMono h.lt (by norm_num) (Nat.lt_succ_self i))

theorem DefaultOK.xyraw_pos {nDf k a b s} (h : DefaultOK nDf k (Real.log a) (Real.log b) s) (ha : 0 < a) (hb : 0 < b) (c : ℕ → ℝ) :
    0 < logYRaw s s.logXYGrid Real.log c := by
  obtain ⟨-, -, hlo, hhi, -, -⟩ := init_default_eq (by have := h.hk; omega) h.hn h.hs
  have hab : a < b := (Real.log_lt_log_iff ha hb).1 h.lt
  have hg : s.logXYGrid = linspace a b 1500 := by rw [Spline.logXYGrid, hlo, hhi, Real.exp_log ha, Real.exp_log hb]
  rw [logYRaw, hg]
  exact trapz_pos (by change 2 ≤ 1500; norm_num) (fun _ _ => Real.exp_pos _) (fun i _ => linspace_strictMono hab (by norm_num) (Nat.lt_succ_self i))

/-- a vector of `n` coefficients, as the model's coefficient function -/
def ofFin {n : ℕ} (c : Fin n → ℝ) (i : ℕ) : ℝ := if h : i < n then c ⟨i, h⟩ else 0

theorem einsum_contDiff {n N : ℕ} (B : ℕ → ℝ) : ContDiff ℝ ((⊤ : ℕ∞) : WithTop ℕ∞) fun c : Fin n → ℝ => einsum N B (ofFin c) := by
  unfold einsum ofFin
  refine ContDiff.sum fun i _ => contDiff_const.mul ?_
  by_cases h : i < n
  · simp only [h, dite_true]; exact contDiff_apply ℝ ℝ (⟨i, h⟩ : Fin n)
  · simp only [h, dite_false]; exact contDiff_const

theorem raw_contDiff {n : ℕ} (s : Spline) (g : Arr ℝ) (f : ℝ → ℝ) :
    ContDiff ℝ ((⊤ : ℕ∞) : WithTop ℕ∞) fun c : Fin n → ℝ => logYRaw s g f (ofFin c) := by
  unfold logYRaw trapz
  refine contDiff_const.mul (ContDiff.sum fun i _ => contDiff_const.mul ?_)
  exact (Real.contDiff_exp.comp (einsum_contDiff _)).add (Real.contDiff_exp.comp (einsum_contDiff _))

/-- **C114.**  At every point of the domain both log-spline densities are smooth (infinitely often differentiable) functions of the
coefficients, so their gradients, which the sampler follows, exist everywhere. -/
theorem C114_gradient (nDf k : ℕ) (a b : ℝ) (hk : 2 ≤ k) (hn : k ≤ nDf) :
    (1 / 1000000 ≤ (b - a) / ((nDf : ℝ) - k + 1) → ∀ s, Spline.init nDf none none a b k = .ok s → ∀ x ∈ Set.Icc a b,
      ∃ f : (Fin nDf → ℝ) → ℝ, ContDiff ℝ ((⊤ : ℕ∞) : WithTop ℕ∞) f ∧ ∀ c : Fin nDf → ℝ, (∀ i, -F.BIG < c i) →
        s.logYEval true (fun i => F.fin (if h : i < nDf then c ⟨i, h⟩ else 0)) x = F.fin (f c)) ∧
    (0 < a → 0 < b → 1 / 1000000 ≤ (Real.log b - Real.log a) / ((nDf : ℝ) - k + 1) → ∀ s, logXInit nDf none none a b k = .ok s →
      ∀ x ∈ Set.Icc a b, ∃ f : (Fin nDf → ℝ) → ℝ, ContDiff ℝ ((⊤ : ℕ∞) : WithTop ℕ∞) f ∧ ∀ c : Fin nDf → ℝ, (∀ i, -F.BIG < c i) →
        s.logXYEval true (fun i => F.fin (if h : i < nDf then c ⟨i, h⟩ else 0)) x = F.fin (f c)) := by
  have hb : ∀ c : Fin nDf → ℝ, (∀ i, -F.BIG < c i) → ∀ i < nDf, -F.BIG < ofFin c i := by
    intro c hc i hi; unfold ofFin; rw [dif_pos hi]; exact hc _
  have ev : ∀ (s : Spline) (c : ℕ → ℝ) x, s.bEval false c x = einsum s.N (fun i => s.bBases i x) c := by
    intro s c x; simp [Spline.bEval, bProject, bNorm]
  refine ⟨fun hgap s hs x hx => ?_, fun ha hb' hgap s hs x hx => ?_⟩
  · have h : DefaultOK nDf k a b s := ⟨hk, hn, hgap, hs⟩
    have hcont : ∀ c : Fin nDf → ℝ, 0 < logYRaw s s.grid id (ofFin c) := fun c => h.raw_pos (ofFin c)
    refine ⟨fun c => Real.exp (einsum s.N (fun i => s.bBases i x) (ofFin c)) * (1 / logYRaw s s.grid id (ofFin c)), ?_, fun c hc => ?_⟩
    · exact (Real.contDiff_exp.comp (einsum_contDiff _)).mul (contDiff_const.div (raw_contDiff s _ _) fun c => (hcont c).ne')
    · simp only [← ev]; exact h.logY_value (ofFin c) (hb c hc) x hx
  · have h : DefaultOK nDf k (Real.log a) (Real.log b) s := ⟨hk, hn, hgap, hs⟩
    have hcont : ∀ c : Fin nDf → ℝ, 0 < logYRaw s s.logXYGrid Real.log (ofFin c) := fun c => h.xyraw_pos ha hb' (ofFin c)
    refine ⟨fun c => Real.exp (einsum s.N (fun i => s.bBases i (Real.log x)) (ofFin c)) * (1 / logYRaw s s.logXYGrid Real.log (ofFin c)), ?_,
      fun c hc => ?_⟩
    · exact (Real.contDiff_exp.comp (einsum_contDiff _)).mul (contDiff_const.div (raw_contDiff s _ _) fun c => (hcont c).ne')
    · simp only [← ev]; exact h.logXY_value ha hb' (ofFin c) (hb c hc) x hx

/-- the shipped mass splines (order 4): two coefficient vectors that give the same density differ by a constant; adding 3 to every
coefficient changes nothing; the density at the midpoint of two vectors is at least the geometric mean -/
example : ∃ s : Spline, logXInit 50 none none 5 100 4 = .ok s ∧ ∀ c d : ℕ → ℝ, (∀ i, 0 ≤ c i) → (∀ i, 0 ≤ d i) →
    ((∀ x ∈ Set.Icc (5 : ℝ) 100, s.logXYEval true (fun i => F.fin (c i)) x = s.logXYEval true (fun i => F.fin (d i)) x) →
      c 0 = d 0 → ∀ i < 50, c i = d i) ∧
    s.logXYEval true (fun i => F.fin (c i + 3)) 20 = s.logXYEval true (fun i => F.fin (c i)) 20 := by
  obtain ⟨s, hs, -⟩ := C16_default_knots 50 4 (Real.log 5) (Real.log 100) (by norm_num) (by norm_num)
  refine ⟨s, hs, fun c d hc hd => ?_⟩
  have hgap : 1 / 1000000 ≤ (Real.log 100 - Real.log 5) / (((50 : ℕ) : ℝ) - ((4 : ℕ) : ℝ) + 1) := by
    have h2 : Real.log 100 - Real.log 5 = Real.log 20 := by rw [← Real.log_div (by norm_num) (by norm_num)]; norm_num
    have h3 : (1 : ℝ) ≤ Real.log 20 := by
      rw [Real.le_log_iff_exp_le (by norm_num)]
      linarith [Real.exp_one_lt_d9]
    rw [h2, le_div_iff₀ (by norm_num)]
    norm_num
    linarith
  have hbig : ∀ c : ℕ → ℝ, (∀ i, 0 ≤ c i) → ∀ i < 50, -F.BIG < c i := fun c hc i _ => by
    have := F.BIG_pos; linarith [hc i]
  constructor
  · intro he h0 i hi
    obtain ⟨m, hm⟩ := (C113_logXlogY 50 4 5 100 (by norm_num) (by norm_num) (by norm_num) (by norm_num) hgap s hs c d (hbig c hc) (hbig d hd)).1 he
    have h1 := hm 0 (by norm_num)
    have h2 := hm i hi
    linarith
  · exact ((C113_logXlogY 50 4 5 100 (by norm_num) (by norm_num) (by norm_num) (by norm_num) hgap s hs c (fun i => c i + 3) (hbig c hc)
      (hbig _ fun i => by linarith [hc i])).2 ⟨3, fun _ _ => rfl⟩ 20 (by norm_num)).symm

end GW
end
