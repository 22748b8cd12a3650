import Verif.Model.Postprocess
import Verif.Props.SplineModels
import Verif.Props.Parametric
import Verif.Props.RedshiftSpline

/-!
# C72, C90: predictive curves
-/

open Finset
noncomputable section
open Classical
namespace GW
open F

/-! ## specification -/

/-- The curve `row` is finite at all grid points and its trapezoid integral over the grid `x` is `c`. -/
def IntegratesTo (x : ℕ → ℝ) (row : ℕ → F) (c : ℝ) : Prop :=
  ∃ g : ℕ → ℝ, (∀ i < 800, row i = fin (g i)) ∧ trapz 800 g x = c

/-- the rate (or fraction) of a draw, 1 when not given -/
def valueAt (r : Option (ℕ → ℝ)) (d : ℕ) : ℝ := (r.map fun r => r d).getD 1

theorem orOnes_eq (r : Option (ℕ → ℝ)) (d : ℕ) : orOnes r d = fin (valueAt r d) := by
  cases r <;> rfl

/-! ### grids -/

theorem two_le_ppdN : 2 ≤ ppdN := by unfold ppdN; norm_num

theorem massGrid_mem {mmin mmax : ℝ} (h : mmin < mmax) {i : ℕ} (hi : i < ppdN) : mmin ≤ massGrid mmin mmax i ∧ massGrid mmin mmax i ≤ mmax :=
  _root_.linspace_mem h.le two_le_ppdN hi

theorem linspace_step {a b : ℝ} (h : a < b) (i : ℕ) (_ : i + 1 < ppdN) : (linspace a b ppdN).get i < (linspace a b ppdN).get (i + 1) :=
  linspace_strictMono h two_le_ppdN (Nat.lt_succ_self i)

theorem trapz_pos_last {n : ℕ} (hn : 2 ≤ n) {y x : ℕ → ℝ} (h0 : ∀ i < n, 0 ≤ y i) (hl : 0 < y (n - 1))
    (hx : ∀ i, i + 1 < n → x i < x (i + 1)) : 0 < trapz n y x := by
  unfold trapz
  refine mul_pos (by norm_num) (sum_pos' (fun i hi => ?_) ⟨n - 2, by simp; omega, ?_⟩)
  · have : i + 1 < n := by have := mem_range.1 hi; omega
    have h1 := h0 i (by omega); have h2 := h0 (i+1) this; have h3 := hx i this
    exact mul_nonneg (by linarith) (by linarith)
  · have h2 := h0 (n - 2) (by omega); have h3 := hx (n - 2) (by omega)
    rw [show n - 2 + 1 = n - 1 by omega] at h3 ⊢
    exact mul_pos (by linarith) (by linarith)

/-! ### rows -/

theorem trapzF_of {x : ℕ → ℝ} {p : ℕ → F} {g : ℕ → ℝ} (h : ∀ i < ppdN, p i = fin (g i)) :
    trapzF ppdN p (fun j => fin (x j)) = fin (trapz ppdN g x) := by
  rw [← trapzF_fin]; exact trapzF_congr h fun _ _ => rfl

theorem ppdRow_ok {x : ℕ → ℝ} {p : ℕ → F} {g : ℕ → ℝ} (h : ∀ i < ppdN, p i = fin (g i)) (hT : trapz ppdN g x ≠ 0) (r f : Option (ℕ → ℝ)) (d : ℕ) :
    IntegratesTo x (ppdRow x p (orOnes r d) (orOnes f d)) (valueAt r d * valueAt f d) := by
  refine ⟨fun i => valueAt r d * valueAt f d * g i / trapz ppdN g x, fun i hi => ?_, ?_⟩
  · rw [ppdRow, orOnes_eq, orOnes_eq, h i hi, trapzF_of h, mul_fin, mul_fin, div_fin hT]
  · rw [trapz_div, trapz_smul]; exact mul_div_cancel_right₀ _ hT

/-- the discretised double integral does not depend on the order -/
theorem trapz_comm (n m : ℕ) (x y : ℕ → ℝ) (g : ℕ → ℕ → ℝ) :
    trapz n (fun j => trapz m (fun i => g i j) y) x = trapz m (fun i => trapz n (fun j => g i j) x) y := by
  have key : ∀ (n m : ℕ) (x y : ℕ → ℝ) (g : ℕ → ℕ → ℝ), trapz n (fun j => trapz m (fun i => g i j) y) x
      = 0.25 * ∑ j ∈ range (n - 1), ∑ i ∈ range (m - 1), (x (j + 1) - x j) * (y (i + 1) - y i) *
        (g (i + 1) (j + 1) + g i (j + 1) + g (i + 1) j + g i j) := by
    intro n m x y g
    unfold trapz
    rw [mul_sum, mul_sum]
    refine sum_congr rfl fun j _ => ?_
    rw [← mul_add, ← sum_add_distrib, mul_sum, mul_sum, mul_sum, mul_sum]
    refine sum_congr rfl fun i _ => ?_
    ring
  rw [key n m x y g, key m n y x (fun j i => g i j), sum_comm]
  congr 1
  refine sum_congr rfl fun i _ => sum_congr rfl fun j _ => ?_
  ring

theorem marginals_ok {ms qs : ℕ → ℝ} {p : ℕ → ℕ → F} {g : ℕ → ℕ → ℝ} (h : ∀ i < ppdN, ∀ j < ppdN, p i j = fin (g i j))
    (h0 : ∀ i < ppdN, ∀ j < ppdN, 0 ≤ g i j) (hl : 0 < g (ppdN - 1) (ppdN - 1))
    (hms : ∀ i, i + 1 < ppdN → ms i < ms (i + 1)) (hqs : ∀ i, i + 1 < ppdN → qs i < qs (i + 1)) (r f : Option (ℕ → ℝ)) (d : ℕ) :
    IntegratesTo ms (marginals ms qs p (orOnes r d) (orOnes f d)).1 (valueAt r d * valueAt f d) ∧
    IntegratesTo qs (marginals ms qs p (orOnes r d) (orOnes f d)).2 (valueAt r d * valueAt f d) ∧
    ∃ T : ℝ, 0 < T ∧
      (∀ j < ppdN, (marginals ms qs p (orOnes r d) (orOnes f d)).1 j =
        fin (trapz ppdN (fun i => valueAt r d * valueAt f d * g i j / T) qs)) ∧
      (∀ i < ppdN, (marginals ms qs p (orOnes r d) (orOnes f d)).2 i =
        fin (trapz ppdN (fun j => valueAt r d * valueAt f d * g i j / T) ms)) := by
  have hN : ppdN - 1 < ppdN := by have := two_le_ppdN; omega
  have hm : ∀ j < ppdN, trapzF ppdN (fun i => p i j) (fun i => fin (qs i)) = fin (trapz ppdN (fun i => g i j) qs) :=
    fun j hj => trapzF_of fun i hi => h i hi j hj
  have hq : ∀ i < ppdN, trapzF ppdN (fun j => p i j) (fun j => fin (ms j)) = fin (trapz ppdN (fun j => g i j) ms) :=
    fun i hi => trapzF_of fun j hj => h i hi j hj
  have hT1 : 0 < trapz ppdN (fun j => trapz ppdN (fun i => g i j) qs) ms := by
    refine trapz_pos_last two_le_ppdN (fun j hj => trapz_nonneg (fun i hi => h0 i hi j hj) fun i hi => (hqs i hi).le) ?_ hms
    exact trapz_pos_last two_le_ppdN (fun i hi => h0 i hi _ hN) hl hqs
  have hc := trapz_comm ppdN ppdN ms qs g
  have hT2 : 0 < trapz ppdN (fun i => trapz ppdN (fun j => g i j) ms) qs := hc ▸ hT1
  have e1 : ∀ j < ppdN, (marginals ms qs p (orOnes r d) (orOnes f d)).1 j = fin (valueAt r d * trapz ppdN (fun i => g i j) qs * valueAt f d /
      trapz ppdN (fun j => trapz ppdN (fun i => g i j) qs) ms) := by
    intro j hj
    simp only [marginals]
    rw [trapzF_of hm, hm j hj, orOnes_eq, orOnes_eq, mul_fin, mul_fin, div_fin hT1.ne']
  have e2 : ∀ i < ppdN, (marginals ms qs p (orOnes r d) (orOnes f d)).2 i = fin (valueAt r d * trapz ppdN (fun j => g i j) ms * valueAt f d /
      trapz ppdN (fun i => trapz ppdN (fun j => g i j) ms) qs) := by
    intro j hj
    simp only [marginals]
    rw [trapzF_of hq, hq j hj, orOnes_eq, orOnes_eq, mul_fin, mul_fin, div_fin hT2.ne']
  refine ⟨⟨_, e1, ?_⟩, ⟨_, e2, ?_⟩, _, hT1, fun j hj => ?_, fun i hi => ?_⟩
  · change trapz ppdN _ _ = _
    rw [trapz_div, trapz_mul_right, trapz_smul, div_eq_iff hT1.ne']; ring
  · change trapz ppdN _ _ = _
    rw [trapz_div, trapz_mul_right, trapz_smul, div_eq_iff hT2.ne']; ring
  · rw [e1 j hj, trapz_div, trapz_smul]; congr 2; ring
  · rw [e2 i hi, trapz_div, trapz_smul, hc]; congr 2; ring

/-! ### flattened grids -/

theorem flat_get (f : ℕ → ℕ → F) (n : ℕ) : ∀ a i j, i < a → j < n →
    ((List.range a).flatMap fun i => (List.range n).map fun j => f i j)[i * n + j]? = some (f i j) := by
  intro a
  have hlen : ∀ a, ((List.range a).flatMap fun i => (List.range n).map fun j => f i j).length = a * n := by
    intro a
    simp [List.length_flatMap, List.map_const']
  induction a with
  | zero => intro i j h; omega
  | succ a ih =>
    intro i j hi hj
    rw [List.range_succ, List.flatMap_append]
    rcases Nat.lt_succ_iff_lt_or_eq.1 hi with h | rfl
    · rw [List.getElem?_append_left, ih i j h hj]
      rw [hlen]
      calc i * n + j < i * n + n := by omega
        _ = (i + 1) * n := by ring
        _ ≤ a * n := Nat.mul_le_mul_right _ h
    · rw [List.getElem?_append_right (by rw [hlen]; omega), hlen]
      simp [hj]

theorem unflat_map (f : ℕ → ℕ → F) (g : F → F) {i j : ℕ} (hi : i < ppdN) (hj : j < ppdN) :
    unflat ((meshFlat f).map g) i j = g (f i j) := by
  unfold unflat meshFlat
  rw [List.getD_eq_getElem?_getD, List.getElem?_map, flat_get f ppdN ppdN i j hi hj]; rfl

theorem unflat_product (f1 f2 : F → F) (a b : ℕ → ℕ → F) {i j : ℕ} (hi : i < ppdN) (hj : j < ppdN) :
    unflat (productOn f1 f2 (meshFlat a) (meshFlat b)) i j = f1 (a i j) * f2 (b i j) := by
  unfold unflat
  rw [List.getD_eq_getElem?_getD]
  unfold meshFlat
  rw [productOn_getElem? f1 f2 _ _ _ (a i j) (b i j)
    (flat_get a ppdN ppdN i j hi hj) (flat_get b ppdN ppdN i j hi hj)]; rfl

theorem gridList_map (x : ℕ → ℝ) (g : F → F) {i : ℕ} (hi : i < ppdN) : ((gridList x).map g).getD i 0 = g (fin (x i)) := by
  unfold gridList
  rw [List.getD_eq_getElem?_getD, List.getElem?_map, List.getElem?_map, List.getElem?_range hi]; rfl

/-! ### positive splines -/

theorem restrict_logY {n : ℕ} {lo hi : ℝ} (hn : 4 ≤ n) (hgap : 1 / 1000000 ≤ (hi - lo) / ((n : ℝ) - 3)) {I : Interp} {nrm : Bool}
    (hI : Interp.make .logY n lo hi 4 nrm = .ok I) {c : ℕ → ℝ} (hc : ∀ i < n, -F.BIG < c i) {x : ℝ} (h1 : lo ≤ x) (h2 : x ≤ hi) :
    ∃ v : ℝ, 0 < v ∧ restrict lo hi (I.eval c) (fin x) = fin v := by
  obtain ⟨s, hs, he⟩ := C31_spline_value _ _ _ _ _ _ _ hI c x
  obtain ⟨v, hv, hev⟩ := (C10_logY_zero_outside_positive_inside n 4 lo hi (by norm_num) hn
    (by convert hgap using 2; push_cast; ring) s hs nrm c hc x).1 ⟨h1, h2⟩
  refine ⟨v, hv, ?_⟩
  simp only [restrict, h1, h2, and_self, if_true]
  exact he.trans hev

theorem restrict_logXY {n : ℕ} {lo hi : ℝ} (h0 : 0 < lo) (hh : 0 < hi) (hn : 4 ≤ n)
    (hgap : 1 / 1000000 ≤ (Real.log hi - Real.log lo) / ((n : ℝ) - 3)) {I : Interp} {nrm : Bool}
    (hI : Interp.make .logXY n lo hi 4 nrm = .ok I) {c : ℕ → ℝ} (hc : ∀ i < n, -F.BIG < c i) {x : ℝ} (h1 : lo ≤ x) (h2 : x ≤ hi) :
    ∃ v : ℝ, 0 < v ∧ restrict lo hi (I.eval c) (fin x) = fin v := by
  obtain ⟨s, hs, he⟩ := C31_spline_value _ _ _ _ _ _ _ hI c x
  obtain ⟨v, hv, hev⟩ := (C10_logXlogY_zero_outside_positive_inside n 4 lo hi h0 hh (by norm_num) hn
    (by convert hgap using 2; push_cast; ring) s hs nrm c hc x (h0.trans_le h1)).1 ⟨h1, h2⟩
  refine ⟨v, hv, ?_⟩
  simp only [restrict, h1, h2, and_self, if_true]
  exact he.trans hev

/-- a positive log-Y spline model sampled on its own grid gives a normalisable row -/
theorem spline_row {n : ℕ} {lo hi : ℝ} (hlt : lo < hi) (hn : 4 ≤ n) (hgap : 1 / 1000000 ≤ (hi - lo) / ((n : ℝ) - 3)) {m : Base1D} {xi : List F}
    (hm : Base1D.make .logY n (gridList (linspace lo hi ppdN).get) xi lo hi 3 true = .ok m) {c : ℕ → ℝ} (hc : ∀ i < n, -F.BIG < c i)
    (r f : Option (ℕ → ℝ)) (d : ℕ) :
    IntegratesTo (linspace lo hi ppdN).get (ppdRow (linspace lo hi ppdN).get (fun i => (m.call c true).getD i 0) (orOnes r d) (orOnes f d))
      (valueAt r d * valueAt f d) := by
  obtain ⟨I, hI, e⟩ := C31_masked_evaluation _ _ _ _ _ _ _ _ _ hm c true
  have hv : ∀ i, ∃ v : ℝ, i < ppdN → 0 < v ∧ restrict lo hi (I.eval c) (fin ((linspace lo hi ppdN).get i)) = fin v := by
    intro i
    by_cases hi' : i < ppdN
    · obtain ⟨h1, h2⟩ := _root_.linspace_mem hlt.le two_le_ppdN hi'
      obtain ⟨v, hv⟩ := restrict_logY hn hgap hI hc h1 h2
      exact ⟨v, fun _ => hv⟩
    · exact ⟨0, fun h => absurd h hi'⟩
  choose g hg using hv
  refine ppdRow_ok (g := g) (fun i hi' => ?_) (trapz_pos two_le_ppdN (fun i hi' => (hg i hi').1) (linspace_step hlt)).ne' r f d
  simp only [e, if_true]
  rw [gridList_map _ _ hi', (hg i hi').2]

/-! ## C72 -/

/-- **C72, B-spline spins (one set of coefficients).** The calculator returns for every draw a magnitude curve on `[0,1]` and a
tilt curve on `[-1,1]`, both integrating to rate times fraction. -/
theorem C72_bspline_spins {na nt : ℕ} (h1 : 4 ≤ na) (h1' : na ≤ 1000003) (h2 : 4 ≤ nt) (h2' : nt ≤ 1000003) (acs tcs : ℕ → ℕ → ℝ)
    (ha : ∀ d, ∀ i < na, -F.BIG < acs d i) (ht : ∀ d, ∀ i < nt, -F.BIG < tcs d i) (rate frac : Option (ℕ → ℝ)) :
    ∃ rows, bsplineSpinPPDs na nt acs tcs rate frac = .ok rows ∧ ∀ d,
      IntegratesTo (linspace 0 1 800).get (rows d).1 (valueAt rate d * valueAt frac d) ∧
      IntegratesTo (linspace (-1) 1 800).get (rows d).2 (valueAt rate d * valueAt frac d) := by
  have ga : (1 : ℝ) / 1000000 ≤ (1 - 0) / ((na : ℝ) - 3) := by
    have a1 : (4 : ℝ) ≤ na := by exact_mod_cast h1
    have a2 : (na : ℝ) ≤ 1000003 := by exact_mod_cast h1'
    rw [le_div_iff₀ (by linarith)]; linarith
  have gt : (1 : ℝ) / 1000000 ≤ (1 - (-1)) / ((nt : ℝ) - 3) := by
    have a1 : (4 : ℝ) ≤ nt := by exact_mod_cast h2
    have a2 : (nt : ℝ) ≤ 1000003 := by exact_mod_cast h2'
    rw [le_div_iff₀ (by linarith)]; linarith
  obtain ⟨ma, hma⟩ := Base1D.make_exists .logY na (gridList (linspace 0 1 ppdN).get) (gridList (linspace 0 1 ppdN).get) 0 1 3 true h1
  obtain ⟨mt, hmt⟩ := Base1D.make_exists .logY nt (gridList (linspace (-1) 1 ppdN).get) (gridList (linspace (-1) 1 ppdN).get) (-1) 1 3 true h2
  have e : bsplineSpinPPDs na nt acs tcs rate frac = .ok fun d =>
      (ppdRow (linspace 0 1 ppdN).get (fun i => (ma.call (acs d) true).getD i 0) (orOnes rate d) (orOnes frac d),
       ppdRow (linspace (-1) 1 ppdN).get (fun i => (mt.call (tcs d) true).getD i 0) (orOnes rate d) (orOnes frac d)) := by
    simp only [bsplineSpinPPDs, iidSpinMagnitudes, iidSpinTilts, spinMagnitudeModel, spinTiltModel, hma, hmt, bind, Except.bind, pure, Except.pure]
  exact ⟨_, e, fun d => ⟨spline_row (by norm_num) h1 ga hma (ha d) rate frac d, spline_row (by norm_num) h2 gt hmt (ht d) rate frac d⟩⟩

/-- **C72, B-spline spins (separate coefficients for the two components).** -/
theorem C72_bspline_independent_spins {na1 na2 nt1 nt2 : ℕ} (hn : ∀ n ∈ [na1, na2, nt1, nt2], 4 ≤ n ∧ n ≤ 1000003)
    (acs1 tcs1 acs2 tcs2 : ℕ → ℕ → ℝ)
    (ha1 : ∀ d, ∀ i < na1, -F.BIG < acs1 d i) (ht1 : ∀ d, ∀ i < nt1, -F.BIG < tcs1 d i)
    (ha2 : ∀ d, ∀ i < na2, -F.BIG < acs2 d i) (ht2 : ∀ d, ∀ i < nt2, -F.BIG < tcs2 d i) (rate frac : Option (ℕ → ℝ)) :
    ∃ rows, bsplineSpinPPDs2 na1 na2 nt1 nt2 acs1 tcs1 acs2 tcs2 rate frac = .ok rows ∧ ∀ d,
      IntegratesTo (linspace 0 1 800).get (rows d).1.1 (valueAt rate d * valueAt frac d) ∧
      IntegratesTo (linspace 0 1 800).get (rows d).1.2 (valueAt rate d * valueAt frac d) ∧
      IntegratesTo (linspace (-1) 1 800).get (rows d).2.1 (valueAt rate d * valueAt frac d) ∧
      IntegratesTo (linspace (-1) 1 800).get (rows d).2.2 (valueAt rate d * valueAt frac d) := by
  have ga : ∀ n : ℕ, 4 ≤ n ∧ n ≤ 1000003 → (1 : ℝ) / 1000000 ≤ (1 - 0) / ((n : ℝ) - 3) := by
    rintro n ⟨h1, h1'⟩
    have a1 : (4 : ℝ) ≤ n := by exact_mod_cast h1
    have a2 : (n : ℝ) ≤ 1000003 := by exact_mod_cast h1'
    rw [le_div_iff₀ (by linarith)]; linarith
  have gt : ∀ n : ℕ, 4 ≤ n ∧ n ≤ 1000003 → (1 : ℝ) / 1000000 ≤ (1 - (-1)) / ((n : ℝ) - 3) := by
    rintro n ⟨h1, h1'⟩
    have a1 : (4 : ℝ) ≤ n := by exact_mod_cast h1
    have a2 : (n : ℝ) ≤ 1000003 := by exact_mod_cast h1'
    rw [le_div_iff₀ (by linarith)]; linarith
  have hA1 := hn na1 (by simp); have hA2 := hn na2 (by simp); have hT1 := hn nt1 (by simp); have hT2 := hn nt2 (by simp)
  obtain ⟨ma1, h1⟩ := Base1D.make_exists .logY na1 (gridList (linspace 0 1 ppdN).get) (gridList (linspace 0 1 ppdN).get) 0 1 3 true hA1.1
  obtain ⟨ma2, h2⟩ := Base1D.make_exists .logY na2 (gridList (linspace 0 1 ppdN).get) (gridList (linspace 0 1 ppdN).get) 0 1 3 true hA2.1
  obtain ⟨mt1, h3⟩ := Base1D.make_exists .logY nt1 (gridList (linspace (-1) 1 ppdN).get) (gridList (linspace (-1) 1 ppdN).get) (-1) 1 3 true hT1.1
  obtain ⟨mt2, h4⟩ := Base1D.make_exists .logY nt2 (gridList (linspace (-1) 1 ppdN).get) (gridList (linspace (-1) 1 ppdN).get) (-1) 1 3 true hT2.1
  have e : bsplineSpinPPDs2 na1 na2 nt1 nt2 acs1 tcs1 acs2 tcs2 rate frac = .ok fun d =>
      ((ppdRow (linspace 0 1 ppdN).get (fun i => (ma1.call (acs1 d) true).getD i 0) (orOnes rate d) (orOnes frac d),
        ppdRow (linspace 0 1 ppdN).get (fun i => (ma2.call (acs2 d) true).getD i 0) (orOnes rate d) (orOnes frac d)),
       (ppdRow (linspace (-1) 1 ppdN).get (fun i => (mt1.call (tcs1 d) true).getD i 0) (orOnes rate d) (orOnes frac d),
        ppdRow (linspace (-1) 1 ppdN).get (fun i => (mt2.call (tcs2 d) true).getD i 0) (orOnes rate d) (orOnes frac d))) := by
    simp only [bsplineSpinPPDs2, independentSpinMagnitudes, independentSpinTilts, spinMagnitudeModel, spinTiltModel, h1, h2, h3, h4, bind,
      Except.bind, pure, Except.pure]
  exact ⟨_, e, fun d => ⟨spline_row (by norm_num) hA1.1 (ga _ hA1) h1 (ha1 d) rate frac d, spline_row (by norm_num) hA2.1 (ga _ hA2) h2 (ha2 d) rate frac d,
    spline_row (by norm_num) hT1.1 (gt _ hT1) h3 (ht1 d) rate frac d, spline_row (by norm_num) hT2.1 (gt _ hT2) h4 (ht2 d) rate frac d⟩⟩

theorem ratio_lt {mmin mmax : ℝ} (h0 : 0 < mmin) (h : mmin < mmax) : mmin / mmax < 1 := (div_lt_one (h0.trans h)).2 h

theorem massGrid_last {mmin mmax : ℝ} : massGrid mmin mmax (ppdN - 1) = mmax := linspace_last _ _ two_le_ppdN
theorem ratioGrid_last {mmin mmax : ℝ} : ratioGrid mmin mmax (ppdN - 1) = 1 := linspace_last _ _ two_le_ppdN

theorem keepAbove_eq {mmin mmax : ℝ} (h0 : 0 < mmin) (h : mmin < mmax) {p : ℕ → ℕ → F} {g : ℕ → ℕ → ℝ}
    (hp : ∀ i < ppdN, ∀ j < ppdN, mmin < ratioGrid mmin mmax i * massGrid mmin mmax j → 0 < g i j ∧ p i j = fin (g i j)) :
    ∃ g' : ℕ → ℕ → ℝ, (∀ i < ppdN, ∀ j < ppdN, keepAbove mmin (massGrid mmin mmax) (ratioGrid mmin mmax) p i j = fin (g' i j)) ∧
      (∀ i < ppdN, ∀ j < ppdN, 0 ≤ g' i j) ∧ 0 < g' (ppdN - 1) (ppdN - 1) ∧
      ∀ i j, g' i j = if mmin < ratioGrid mmin mmax i * massGrid mmin mmax j then g i j else 0 := by
  have hN : ppdN - 1 < ppdN := by have := two_le_ppdN; omega
  refine ⟨fun i j => if mmin < ratioGrid mmin mmax i * massGrid mmin mmax j then g i j else 0, ?_, ?_, ?_, fun _ _ => rfl⟩
  · intro i hi j hj
    have hm : 0 < massGrid mmin mmax j := h0.trans_le (massGrid_mem h hj).1
    unfold keepAbove
    rw [div_fin hm.ne']
    by_cases hc : mmin < ratioGrid mmin mmax i * massGrid mmin mmax j
    · simp only [if_pos hc]
      rw [if_pos (by rw [gt_fin]; rwa [div_lt_iff₀ hm]), (hp i hi j hj hc).2]
    · simp only [if_neg hc]
      rw [if_neg (by rw [gt_fin, div_lt_iff₀ hm]; exact hc)]; rfl
  · intro i hi j hj
    dsimp only
    split_ifs with hc
    · exact (hp i hi j hj hc).1.le
    · exact le_rfl
  · have hc : mmin < ratioGrid mmin mmax (ppdN - 1) * massGrid mmin mmax (ppdN - 1) := by
      rw [massGrid_last, ratioGrid_last, one_mul]; exact h
    simp only [if_pos hc]
    exact (hp _ hN _ hN hc).1

/-- both curves integrate to `c` and are the marginals of one non-negative grid density, which is zero where the secondary would
be lighter than `mmin` -/
def MassCurves (mmin mmax : ℝ) (rows : (ℕ → F) × (ℕ → F)) (c : ℝ) : Prop :=
  IntegratesTo (linspace mmin mmax 800).get rows.1 c ∧ IntegratesTo (linspace (mmin / mmax) 1 800).get rows.2 c ∧
  ∃ ρ : ℕ → ℕ → ℝ, (∀ i < 800, ∀ j < 800, 0 ≤ ρ i j) ∧
    (∀ i < 800, ∀ j < 800, (linspace (mmin / mmax) 1 800).get i * (linspace mmin mmax 800).get j < mmin → ρ i j = 0) ∧
    (∀ j < 800, rows.1 j = fin (trapz 800 (fun i => c * ρ i j) (linspace (mmin / mmax) 1 800).get)) ∧
    (∀ i < 800, rows.2 i = fin (trapz 800 (fun j => c * ρ i j) (linspace mmin mmax 800).get))

theorem massCurves_of {mmin mmax : ℝ} (h0 : 0 < mmin) (h : mmin < mmax) {p : ℕ → ℕ → F} {g : ℕ → ℕ → ℝ}
    (hp : ∀ i < ppdN, ∀ j < ppdN, p i j = fin (g i j)) (hg : ∀ i < ppdN, ∀ j < ppdN, 0 ≤ g i j) (hl : 0 < g (ppdN - 1) (ppdN - 1))
    (hz : ∀ i < ppdN, ∀ j < ppdN, ratioGrid mmin mmax i * massGrid mmin mmax j < mmin → g i j = 0) (r f : Option (ℕ → ℝ)) (d : ℕ) :
    MassCurves mmin mmax (marginals (massGrid mmin mmax) (ratioGrid mmin mmax) p (orOnes r d) (orOnes f d)) (valueAt r d * valueAt f d) := by
  obtain ⟨a, b, T, hT, e1, e2⟩ := marginals_ok (ms := massGrid mmin mmax) (qs := ratioGrid mmin mmax) hp hg hl (linspace_step h)
    (linspace_step (ratio_lt h0 h)) r f d
  refine ⟨a, b, fun i j => g i j / T, fun i hi j hj => div_nonneg (hg i hi j hj) hT.le, fun i hi j hj hlt => ?_, fun j hj => ?_, fun i hi => ?_⟩
  · have := hz i hi j hj hlt
    simp only [this, zero_div]
  · rw [e1 j hj]; simp only [mul_div_assoc]; rfl
  · rw [e2 i hi]; simp only [mul_div_assoc]; rfl

/-- **C72, B-spline masses.** -/
theorem C72_bspline_masses {nm nq : ℕ} {mmin mmax : ℝ} (h0 : 0 < mmin) (h : mmin < mmax) (hm : 4 ≤ nm) (hq : 4 ≤ nq)
    (gm : 1 / 1000000 ≤ (Real.log mmax - Real.log mmin) / ((nm : ℝ) - 3)) (gq : 1 / 1000000 ≤ (1 - mmin / mmax) / ((nq : ℝ) - 3))
    (mcs qcs : ℕ → ℕ → ℝ) (hmc : ∀ d, ∀ i < nm, -F.BIG < mcs d i) (hqc : ∀ d, ∀ i < nq, -F.BIG < qcs d i) (rate frac : Option (ℕ → ℝ)) :
    ∃ rows, bsplineMassPPDs nm nq mmin mmax mcs qcs rate frac = .ok rows ∧ ∀ d, MassCurves mmin mmax (rows d) (valueAt rate d * valueAt frac d) := by
  obtain ⟨mm, h1⟩ := Base1D.make_exists .logXY nm (meshFlat fun _ j => fin (massGrid mmin mmax j)) ((List.range ppdN).map fun j => fin (massGrid mmin mmax j)) mmin mmax 3 true hm
  obtain ⟨mq, h2⟩ := Base1D.make_exists .logY nq (meshFlat fun i _ => fin (ratioGrid mmin mmax i)) ((List.range ppdN).map fun i => fin (ratioGrid mmin mmax i)) (mmin / mmax) 1 3 true hq
  have hp : primaryRatio nm nq (meshFlat fun _ j => fin (massGrid mmin mmax j)) ((List.range ppdN).map fun j => fin (massGrid mmin mmax j))
      (meshFlat fun i _ => fin (ratioGrid mmin mmax i)) ((List.range ppdN).map fun i => fin (ratioGrid mmin mmax i)) mmax mmin mmin = .ok ⟨mm, mq⟩ := by
    simp only [primaryRatio, massModel, ratioModel, h1, h2, bind, Except.bind, pure, Except.pure]
  refine ⟨_, by simp only [bsplineMassPPDs, hp, bind, Except.bind, pure, Except.pure]; rfl, fun d => ?_⟩
  obtain ⟨I1, I2, hI1, hI2, e⟩ := C33_primary_ratio _ _ _ _ _ _ _ _ _ _ _ _ hp (mcs d) (qcs d) true
  simp only [if_true] at e
  have hv : ∀ i j, ∃ v : ℝ, i < ppdN → j < ppdN → 0 < v ∧
      unflat (Pair.primaryRatioCall ⟨mm, mq⟩ (mcs d) (qcs d) true) i j = fin v := by
    intro i j
    by_cases hij : i < ppdN ∧ j < ppdN
    · obtain ⟨hi, hj⟩ := hij
      obtain ⟨a1, a2⟩ := massGrid_mem h hj
      obtain ⟨b1, b2⟩ := _root_.linspace_mem (ratio_lt h0 h).le two_le_ppdN hi
      obtain ⟨v, hv, ev⟩ := restrict_logXY h0 (h0.trans h) hm gm hI1 (hmc d) a1 a2
      obtain ⟨w, hw, ew⟩ := restrict_logY hq gq hI2 (hqc d) b1 b2
      refine ⟨v * w, fun _ _ => ⟨mul_pos hv hw, ?_⟩⟩
      rw [e, unflat_product _ _ _ _ hi hj, ev]
      exact (congrArg (fin v * ·) ew).trans (mul_fin _ _)
    · exact ⟨0, fun a b => absurd ⟨a, b⟩ hij⟩
  choose g hg using hv
  obtain ⟨g', k1, k2, k3, k4⟩ := keepAbove_eq h0 h (p := unflat (Pair.primaryRatioCall ⟨mm, mq⟩ (mcs d) (qcs d) true)) (g := g)
    fun i hi j hj _ => hg i j hi hj
  exact massCurves_of h0 h k1 k2 k3 (fun i _ j _ hlt => by rw [k4, if_neg (not_lt.2 hlt.le)]) rate frac d

/-- **C72, power law plus peak.** -/
theorem C72_plpeak_masses {mmin mmax : ℝ} (h0 : 0 < mmin) (h : mmin < mmax) (alpha beta mu sig lamb : ℕ → ℝ) (d : ℕ) (hs : 0 < sig d)
    (hl0 : 0 ≤ lamb d) (hl1 : lamb d ≤ 1) (rate frac : Option (ℕ → ℝ)) :
    MassCurves mmin mmax (plpeakMassPPDs alpha beta mu sig lamb mmin mmax rate frac d) (valueAt rate d * valueAt frac d) := by
  have hp : ∀ i < ppdN, ∀ j < ppdN, mmin < ratioGrid mmin mmax i * massGrid mmin mmax j →
      0 < (ratioGrid mmin mmax i ^ beta d * plNorm (beta d) (mmin / massGrid mmin mmax j) 1) *
        ((1 - lamb d) * (massGrid mmin mmax j ^ alpha d * plNorm (alpha d) mmin mmax) + lamb d * tnPdf (mu d) (sig d) mmin mmax (massGrid mmin mmax j)) ∧
      plpeak_primary_ratio_pdf (fin (massGrid mmin mmax j)) (fin (ratioGrid mmin mmax i)) (fin (alpha d)) (fin (beta d))
        (fin mmin) (fin mmax) (fin (mu d)) (fin (sig d)) (fin (lamb d)) = fin ((ratioGrid mmin mmax i ^ beta d * plNorm (beta d) (mmin / massGrid mmin mmax j) 1) *
        ((1 - lamb d) * (massGrid mmin mmax j ^ alpha d * plNorm (alpha d) mmin mmax) + lamb d * tnPdf (mu d) (sig d) mmin mmax (massGrid mmin mmax j))) := by
    intro i hi j hj hc
    obtain ⟨a1, a2⟩ := massGrid_mem h hj
    obtain ⟨b1, b2⟩ := _root_.linspace_mem (ratio_lt h0 h).le two_le_ppdN hi
    change _ ≤ ratioGrid mmin mmax i at b1
    change ratioGrid mmin mmax i ≤ 1 at b2
    have hm : 0 < massGrid mmin mmax j := h0.trans_le a1
    have hq : 0 < ratioGrid mmin mmax i := (div_pos h0 (h0.trans h)).trans_le b1
    have hmm : mmin < massGrid mmin mmax j := by nlinarith
    have hlo : mmin / massGrid mmin mmax j ≤ ratioGrid mmin mmax i := by rw [div_le_iff₀ hm]; exact hc.le
    have hlt : mmin / massGrid mmin mmax j < 1 := (div_lt_one hm).2 hmm
    have p1 := plNorm_pos (α := beta d) (div_pos h0 hm) hlt
    have p2 := plNorm_pos (α := alpha d) h0 h
    have p3 := tnPdf_pos (mu := mu d) hs h (massGrid mmin mmax j)
    have p4 := Real.rpow_pos_of_pos hq (beta d)
    have p5 := Real.rpow_pos_of_pos hm (alpha d)
    constructor
    · refine mul_pos (by positivity) ?_
      rcases eq_or_lt_of_le hl0 with h' | h'
      · rw [← h']; simp only [sub_zero, one_mul, zero_mul, add_zero]; positivity
      · have : 0 ≤ 1 - lamb d := by linarith
        positivity
    · simp only [plpeak_primary_ratio_pdf]
      rw [div_fin hm.ne', one_def, powerlaw_pdf_in (div_pos h0 hm) hlt hlo b2, plpeak_in h0 h hs a1 a2, mul_fin]
  obtain ⟨g', k1, k2, k3, k4⟩ := keepAbove_eq h0 h hp
  exact massCurves_of h0 h k1 k2 k3 (fun i _ j _ hlt => by rw [k4, if_neg (not_lt.2 hlt.le)]) rate frac d

/-- **C72, log-normal peak with B-spline mass ratio.** -/
theorem C72_logpeak_masses {nq : ℕ} {mmin mmax : ℝ} (h0 : 0 < mmin) (h : mmin < mmax) (hq : 4 ≤ nq)
    (gq : 1 / 1000000 ≤ (1 - mmin / mmax) / ((nq : ℝ) - 3)) (logmp logsigp : ℕ → ℝ) (hs : ∀ d, 0 < logsigp d)
    (qcs : ℕ → ℕ → ℝ) (hqc : ∀ d, ∀ i < nq, -F.BIG < qcs d i) (rate frac : Option (ℕ → ℝ)) :
    ∃ rows, logPeakMassPPDs nq logmp logsigp qcs mmin mmax rate frac = .ok rows ∧ ∀ d, MassCurves mmin mmax (rows d) (valueAt rate d * valueAt frac d) := by
  have hN : ppdN - 1 < ppdN := by have := two_le_ppdN; omega
  obtain ⟨mq, h2⟩ := Base1D.make_exists .logY nq (meshFlat fun i _ => fin (ratioGrid mmin mmax i)) ((List.range ppdN).map fun i => fin (ratioGrid mmin mmax i)) (mmin / mmax) 1 3 true hq
  refine ⟨_, by simp only [logPeakMassPPDs, ratioModel, h2, bind, Except.bind, pure, Except.pure]; rfl, fun d => ?_⟩
  obtain ⟨I2, hI2, e⟩ := C31_masked_evaluation _ _ _ _ _ _ _ _ _ h2 (qcs d) true
  simp only [if_true] at e
  have hv : ∀ i j, ∃ v : ℝ, i < ppdN → j < ppdN → 0 < v ∧
      unflat (mq.call (qcs d) true) i j * truncnorm_pdf (fin (massGrid mmin mmax j)) (fin (logmp d)) (fin (logsigp d)) (fin mmin) (fin mmax) true = fin v := by
    intro i j
    by_cases hij : i < ppdN ∧ j < ppdN
    · obtain ⟨hi, hj⟩ := hij
      obtain ⟨a1, a2⟩ := massGrid_mem h hj
      obtain ⟨b1, b2⟩ := _root_.linspace_mem (ratio_lt h0 h).le two_le_ppdN hi
      obtain ⟨v, hv, ev⟩ := (C22_lognormal_normalised (logmp d) (logsigp d) mmin mmax (hs d) h0 h).2.1 _ a1 a2
      obtain ⟨w, hw, ew⟩ := restrict_logY hq gq hI2 (hqc d) b1 b2
      refine ⟨w * v, fun _ _ => ⟨mul_pos hw hv, ?_⟩⟩
      rw [e, unflat_map _ _ hi hj, ev]
      exact (congrArg (· * fin v) ew).trans (mul_fin _ _)
    · exact ⟨0, fun a b => absurd ⟨a, b⟩ hij⟩
  choose g hg using hv
  refine massCurves_of h0 h (g := fun i j => if ratioGrid mmin mmax i * massGrid mmin mmax j < mmin then 0 else g i j) ?_ ?_ ?_ ?_ rate frac d
  · intro i hi j hj
    have a1 := (massGrid_mem h hj).1
    have : (lt (fin (massGrid mmin mmax j)) (fin mmin) ∨ lt (fin (massGrid mmin mmax j) * fin (ratioGrid mmin mmax i)) (fin mmin)) ↔
        ratioGrid mmin mmax i * massGrid mmin mmax j < mmin := by
      rw [mul_fin, lt_fin, lt_fin, mul_comm]
      exact or_iff_right (not_lt.2 a1)
    simp only [this]
    split_ifs
    · rfl
    · exact (hg i j hi hj).2
  · intro i hi j hj
    split_ifs
    · exact le_rfl
    · exact (hg i j hi hj).1.le
  · rw [massGrid_last, ratioGrid_last, if_neg (by linarith)]
    exact (hg _ _ hN hN).1
  · intro i _ j _ hlt; exact if_pos hlt

/-- **C72, mixture of isotropic and aligned tilts.** -/
theorem C72_mixture_tilts (sig lam : ℕ → ℝ) (d : ℕ) (hs : 0 < sig d) (h0 : 0 ≤ lam d) (h1 : lam d ≤ 1) (rate frac : Option (ℕ → ℝ)) :
    IntegratesTo (linspace (-1) 1 800).get (mixtureTiltPPD sig lam rate frac d) (valueAt rate d * valueAt frac d) := by
  refine ppdRow_ok (g := fun i => (1 - lam d) / 2 + lam d * tnPdf 1 (sig d) (-1) 1 ((linspace (-1) 1 ppdN).get i)) (fun i hi => ?_) ?_ rate frac d
  · obtain ⟨b1, b2⟩ := _root_.linspace_mem (by norm_num : (-1 : ℝ) ≤ 1) two_le_ppdN hi
    exact isoalign_in hs b1 b2
  · refine (trapz_pos two_le_ppdN (fun i hi => ?_) (linspace_step (by norm_num))).ne'
    have p3 := tnPdf_pos (mu := 1) hs (by norm_num : (-1 : ℝ) < 1) ((linspace (-1) 1 ppdN).get i)
    rcases eq_or_lt_of_le h0 with h' | h'
    · rw [← h']; norm_num
    · have : 0 ≤ 1 - lam d := by linarith
      positivity

theorem grid_interior {amax : ℝ} (ha : 0 < amax) {i : ℕ} (h0 : 0 < i) (hi : i < ppdN - 1) :
    0 < (linspace 0 amax ppdN).get i ∧ (linspace 0 amax ppdN).get i < amax := by
  have hm := linspace_strictMono ha two_le_ppdN
  constructor
  · have := hm h0; rwa [linspace_zero] at this
  · have := hm hi; rwa [linspace_last _ _ two_le_ppdN] at this

theorem betadist_top {α β s : ℝ} (hα : 0 < α) (hβ : 0 < β) (hs : 0 < s) :
    (1 < β → betadist (fin s) (fin α) (fin β) (fin s) = fin 0) ∧ (β < 1 → betadist (fin s) (fin α) (fin β) (fin s) = F.pinf) := by
  constructor <;> intro h <;> simp only [betadist, one_def, zero_def]
  · rw [if_pos (by simp [hs.le]), sub_fin s s, sub_self, log_zero, sub_fin, sub_fin, fin_mul_ninf (β - 1),
      infOfSign_neg (by linarith), log_fin hs, betalnF, if_pos ⟨hα, hβ⟩]
    simp
  · rw [if_pos (by simp [hs.le]), sub_fin s s, sub_self, log_zero, sub_fin, sub_fin, fin_mul_ninf (β - 1),
      infOfSign_pos (by linarith), log_fin hs, betalnF, if_pos ⟨hα, hβ⟩]
    simp

/-- **C72, Beta spin magnitudes, partial:** both shapes above 1.  Missing: shapes `≤ 1`, see `C72_beta_fails`. -/
theorem C72_beta_partial (alpha beta : ℕ → ℝ) (d : ℕ) (hα : 1 < alpha d) (hβ : 1 < beta d) {amax : ℝ} (ha : 0 < amax) (rate frac : Option (ℕ → ℝ)) :
    IntegratesTo (linspace 0 amax 800).get (betaSpinPPD alpha beta amax rate frac d) (valueAt rate d * valueAt frac d) := by
  have hα0 : 0 < alpha d := by linarith
  have hβ0 : 0 < beta d := by linarith
  refine ppdRow_ok (g := fun i => if i = 0 ∨ i = ppdN - 1 then 0 else betaR (alpha d) (beta d) amax ((linspace 0 amax ppdN).get i)) (fun i hi => ?_) ?_ rate frac d
  · split_ifs with h
    · rcases h with rfl | rfl
      · rw [linspace_zero]; exact (C23_endpoint_values _ _ _ 0 hα0 hβ0 ha).1 hα
      · rw [linspace_last _ _ two_le_ppdN]; exact (betadist_top hα0 hβ0 ha).1 hβ
    · push Not at h
      obtain ⟨a1, a2⟩ := grid_interior ha (Nat.pos_of_ne_zero h.1) (by omega)
      exact betadist_in hα0 hβ0 a1 a2
  · have pos : ∀ i, 0 < i → i < ppdN - 1 → 0 < betaR (alpha d) (beta d) amax ((linspace 0 amax ppdN).get i) := by
      intro i h1 h2
      obtain ⟨a1, a2⟩ := grid_interior ha h1 h2
      obtain ⟨v, hv, e⟩ := (C23_betadist_normalised_partial (alpha d) (beta d) amax 0 hα0 hβ0 ha).2.1 _ a1 a2
      rw [betadist_in hα0 hβ0 a1 a2] at e
      rw [(fin_inj _ _).1 e]; exact hv
    have nn : ∀ i < ppdN, 0 ≤ (fun i => if i = 0 ∨ i = ppdN - 1 then 0 else betaR (alpha d) (beta d) amax ((linspace 0 amax ppdN).get i)) i := by
      intro i hi
      dsimp only
      split_ifs with h'
      · exact le_rfl
      · exact (pos _ (by omega) (by omega)).le
    refine ne_of_gt ?_
    unfold trapz
    refine mul_pos (by norm_num) (sum_pos' (fun i hi => ?_) ⟨1, by simp [ppdN], ?_⟩)
    · have hi' := mem_range.1 hi
      refine mul_nonneg (sub_nonneg.2 (linspace_step ha i (by omega)).le) (add_nonneg (nn _ (by omega)) (nn _ (by omega)))
    · refine mul_pos (sub_pos.2 (linspace_step ha 1 (by simp [ppdN]))) ?_
      dsimp only
      rw [if_neg (by simp [ppdN]), if_neg (by simp [ppdN])]
      exact add_pos (pos 2 (by omega) (by simp [ppdN])) (pos 1 (by omega) (by simp [ppdN]))

theorem isfinite_of_add {a b : F} (h : (a + b).isfinite) : a.isfinite ∧ b.isfinite := by
  cases a <;> cases b <;> simp_all

theorem isfinite_of_mul {c : ℝ} (hc : c ≠ 0) {a : F} (h : (fin c * a).isfinite) : a.isfinite := by
  cases a with
  | fin x => simp
  | nan => simpa using h
  | pinf => rcases lt_or_gt_of_ne hc with h' | h' <;> simp [fin_mul_pinf, infOfSign_pos, infOfSign_neg, h'] at h
  | ninf =>
    rw [fin_mul_ninf] at h
    rcases lt_or_gt_of_ne hc with h' | h'
    · rw [infOfSign_pos (by linarith)] at h; simp at h
    · rw [infOfSign_neg (by linarith)] at h; simp at h

theorem isfinite_of_sum {ι : Type*} (s : Finset ι) (f : ι → F) (h : (∑ i ∈ s, f i).isfinite) : ∀ i ∈ s, (f i).isfinite := by
  induction s using Finset.induction_on with
  | empty => simp
  | insert a s ha ih =>
    rw [sum_insert ha] at h
    obtain ⟨h1, h2⟩ := isfinite_of_add h
    intro i hi
    rcases mem_insert.1 hi with rfl | hi
    · exact h1
    · exact ih h2 i hi

/-- a trapezoid sum is finite only if every ordinate is -/
theorem trapzF_isfinite {n : ℕ} (hn : 2 ≤ n) {y : ℕ → F} {x : ℕ → ℝ} (hx : ∀ i, i + 1 < n → x i < x (i + 1))
    (h : (trapzF n y (fun i => fin (x i))).isfinite) : ∀ k < n, (y k).isfinite := by
  have h1 := isfinite_of_sum _ _ (isfinite_of_mul (by norm_num) h)
  intro k hk
  rcases Nat.lt_or_ge k (n - 1) with h' | h'
  · have := h1 k (mem_range.2 h')
    rw [sub_fin] at this
    exact (isfinite_of_add (isfinite_of_mul (sub_pos.2 (hx k (by omega))).ne' this)).2
  · have := h1 (n - 2) (mem_range.2 (by omega))
    rw [sub_fin] at this
    have := (isfinite_of_add (isfinite_of_mul (sub_pos.2 (hx (n - 2) (by omega))).ne' this)).1
    rwa [show n - 2 + 1 = k by omega] at this

theorem div_nonfinite {a b : F} (ha : ¬ a.isfinite) (hb : ¬ b.isfinite) : a / b = F.nan := by
  cases a <;> cases b <;> simp_all

theorem mul_nonfinite {a b : F} (hb : ¬ b.isfinite) : ¬ (a * b).isfinite := by
  cases a with
  | fin c =>
    rcases eq_or_ne c 0 with rfl | hc
    · cases b <;> simp_all [fin_mul_pinf, fin_mul_ninf]
    · exact fun h => hb (isfinite_of_mul hc h)
  | _ => cases b <;> simp_all

/-- an entry that is not finite makes the corresponding entry of the curve NaN -/
theorem ppdRow_nan {x : ℕ → ℝ} {p : ℕ → F} (hx : ∀ i, i + 1 < ppdN → x i < x (i + 1)) {k : ℕ} (hk : k < ppdN) (hp : ¬ (p k).isfinite) (r f : F) :
    ppdRow x p r f k = F.nan :=
  div_nonfinite (mul_nonfinite hp) fun h => hp (trapzF_isfinite two_le_ppdN hx h k hk)

/-- **C72 is false of the Beta calculator** as soon as one shape is at most 1: the curve of that draw has a NaN entry, so it has
no integral. -/
theorem C72_beta_fails (alpha beta : ℕ → ℝ) (d : ℕ) (hα : 0 < alpha d) (hβ : 0 < beta d) (hle : alpha d ≤ 1 ∨ beta d ≤ 1) {amax : ℝ} (ha : 0 < amax)
    (rate frac : Option (ℕ → ℝ)) :
    (∃ i < 800, betaSpinPPD alpha beta amax rate frac d i = F.nan) ∧
    ∀ c, ¬ IntegratesTo (linspace 0 amax 800).get (betaSpinPPD alpha beta amax rate frac d) c := by
  have hN : ppdN - 1 < ppdN := by have := two_le_ppdN; omega
  have key : ∃ k < ppdN, ¬ (betadist (fin ((linspace 0 amax ppdN).get k)) (fin (alpha d)) (fin (beta d)) (fin amax)).isfinite := by
    rcases hle with h | h
    · refine ⟨0, by have := two_le_ppdN; omega, ?_⟩
      rw [linspace_zero]
      rcases eq_or_lt_of_le h with h | h
      · rw [h, C23_nan_at_zero_fails _ _ _ ha]; simp
      · rw [(C23_endpoint_values _ _ _ 0 hα hβ ha).2 h]; simp
    · refine ⟨ppdN - 1, hN, ?_⟩
      rw [linspace_last _ _ two_le_ppdN]
      rcases eq_or_lt_of_le h with h | h
      · rw [h, C23_nan_at_scale_fails _ _ _ ha]; simp
      · rw [(betadist_top hα hβ ha).2 h]; simp
  obtain ⟨k, hk, hb⟩ := key
  have e : betaSpinPPD alpha beta amax rate frac d k = F.nan := by
    unfold betaSpinPPD
    exact ppdRow_nan (p := fun i => betadist (fin ((linspace 0 amax ppdN).get i)) (fin (alpha d)) (fin (beta d)) (fin amax))
      (linspace_step ha) hk hb _ _
  refine ⟨⟨k, hk, e⟩, ?_⟩
  rintro c ⟨g, hg, -⟩
  have := hg k hk
  rw [e] at this
  cases this

/-! ### non-vacuity of C72 -/

example : ∃ rows, bsplineSpinPPDs 16 10 (fun d i => (d : ℝ) - i) (fun _ i => i) (some fun d => d + 20) none = .ok rows ∧ ∀ d,
    IntegratesTo (linspace 0 1 800).get (rows d).1 (d + 20) := by
  obtain ⟨rows, h1, h2⟩ := C72_bspline_spins (na := 16) (nt := 10) (by norm_num) (by norm_num) (by norm_num) (by norm_num)
    (fun d i => (d : ℝ) - i) (fun _ i => i)
    (fun d i hi => by
      have h1 : (i : ℝ) < 16 := by exact_mod_cast hi
      have h2 : (0 : ℝ) ≤ d := d.cast_nonneg
      have : (16 : ℝ) ≤ F.BIG := by norm_num [F.BIG]
      linarith)
    (fun d i hi => by
      have h2 : (0 : ℝ) ≤ i := i.cast_nonneg
      have : (16 : ℝ) ≤ F.BIG := by norm_num [F.BIG]
      linarith) (some fun d => d + 20) none
  exact ⟨rows, h1, fun d => by simpa [valueAt] using (h2 d).1⟩

example : ∃ rows, bsplineMassPPDs 50 30 5 100 (fun _ i => i) (fun _ i => i) none (some fun _ => 0.3) = .ok rows ∧ ∀ d, MassCurves 5 100 (rows d) 0.3 := by
  have hb : ∀ i : ℕ, -F.BIG < (i : ℝ) := fun i => by
    have h2 : (0 : ℝ) ≤ i := i.cast_nonneg
    have : (16 : ℝ) ≤ F.BIG := by norm_num [F.BIG]
    linarith
  obtain ⟨rows, h1, h2⟩ := C72_bspline_masses (nm := 50) (nq := 30) (mmin := 5) (mmax := 100) (by norm_num) (by norm_num) (by norm_num) (by norm_num)
    (by
      rw [← Real.log_div (by norm_num) (by norm_num)]
      have h1 : (1 : ℝ) ≤ Real.log (100 / 5) := by
        rw [Real.le_log_iff_exp_le (by norm_num)]
        have := Real.exp_one_lt_d9
        linarith
      rw [le_div_iff₀ (by norm_num)]; norm_num at h1 ⊢; linarith)
    (by norm_num) (fun _ i => i) (fun _ i => i) (fun _ i _ => hb i) (fun _ i _ => hb i) none (some fun _ => 0.3)
  exact ⟨rows, h1, fun d => by simpa [valueAt] using h2 d⟩

example : MassCurves 5 80 (plpeakMassPPDs (fun _ => -2.3) (fun _ => 1.1) (fun _ => 35) (fun _ => 4) (fun _ => 0.1) 5 80 none none 7) 1 := by
  simpa [valueAt] using C72_plpeak_masses (mmin := 5) (mmax := 80) (by norm_num) (by norm_num) (fun _ => -2.3) (fun _ => 1.1) (fun _ => 35) (fun _ => 4)
    (fun _ => 0.1) 7 (by norm_num) (by norm_num) (by norm_num) none none

example : IntegratesTo (linspace 0 1 800).get (betaSpinPPD (fun _ => 2) (fun _ => 5) 1 (some fun _ => 20) none 3) 20 := by
  simpa [valueAt] using C72_beta_partial (fun _ => 2) (fun _ => 5) 3 (by norm_num) (by norm_num) (amax := 1) (by norm_num) (some fun _ => 20) none

example : ∃ i < 800, betaSpinPPD (fun _ => 1) (fun _ => 5) 1 none none 3 i = F.nan :=
  (C72_beta_fails (fun _ => 1) (fun _ => 5) 3 (by norm_num) (by norm_num) (Or.inl le_rfl) (amax := 1) (by norm_num) none none).1

/-! ## C90 -/

/-- `row` (on the grid `z` of 1000 redshifts) is a comoving merger-rate density that, weighted with the comoving volume per
redshift and source-frame time dilation, integrates to `c`, and whose weighted value is everywhere `c` times the density `ρ`. -/
def RateCurve (dV : ℝ → ℝ) (z : ℕ → ℝ) (row : ℕ → F) (c : ℝ) (ρ : ℝ → ℝ) : Prop :=
  ∃ R : ℕ → ℝ, (∀ j < 1000, row j = fin (R j)) ∧ (∀ j < 1000, R j * dV (z j) / (1 + z j) = c * ρ (z j)) ∧
    trapz 1000 (fun j => R j * dV (z j) / (1 + z j)) z = c

/-- **C90 (power law).** The curve is `rate * fraction * (1+z)^lamb`, so `rate * fraction` is the rate at redshift zero, and it is
the evolution whose volumetric density is the model's redshift density: the density the model evaluates at a sample is `ρ`. -/
theorem C90_powerlaw_rate (m : ZModel) (hmin : 0 < m.zmin) (hlt : m.zmin < m.zmax) (hdV : ∀ x, m.zmin ≤ x → x ≤ m.zmax → 0 < m.dV x)
    (lamb rate : ℕ → ℝ) (frac : Option (ℕ → ℝ)) (d : ℕ) :
    ∃ ρ : ℝ → ℝ, RateCurve m.dV (linspace m.zmin m.zmax 1000).get (powerlawRate m lamb rate frac d) (rate d * valueAt frac d * m.normalization (lamb d)) ρ ∧
      (∀ j < 1000, powerlawRate m lamb rate frac d j =
        fin (rate d * valueAt frac d * (1 + (linspace m.zmin m.zmax 1000).get j) ^ lamb d)) ∧
      ∀ (twoD : Bool) (i : ℕ), 0 < (if twoD then m.zpe else m.zinj).get i → (if twoD then m.zpe else m.zinj).get i ≤ m.zmax →
        m.call twoD (if twoD then m.zpe else m.zinj) (lamb d) i = fin (ρ ((if twoD then m.zpe else m.zinj).get i)) := by
  have hz : ∀ j < 1000, 0 < (linspace m.zmin m.zmax 1000).get j := fun j hj => hmin.trans_le (_root_.linspace_mem hlt.le (by norm_num) hj).1
  have hN : 0 < m.normalization (lamb d) := by
    refine trapz_pos (n := 1000) (by norm_num) (fun j hj => ?_) fun j hj => linspace_strictMono hlt (by norm_num) (Nat.lt_succ_self j)
    have := _root_.linspace_mem hlt.le (n := 1000) (by norm_num) hj
    exact mul_pos (hdV _ this.1 this.2) (Real.rpow_pos_of_pos (by have := hz j hj; unfold ZModel.zs; linarith) _)
  have e : ∀ j < 1000, powerlawRate m lamb rate frac d j = fin (rate d * valueAt frac d * (1 + (linspace m.zmin m.zmax 1000).get j) ^ lamb d) := by
    intro j hj
    have := hz j hj
    simp only [powerlawRate, orOnes_eq, ZModel.zs]
    rw [one_def, add_fin, pow_fin_pos (by linarith), mul_fin, mul_fin]
  have key : ∀ j < 1000, rate d * valueAt frac d * (1 + (linspace m.zmin m.zmax 1000).get j) ^ lamb d * m.dV ((linspace m.zmin m.zmax 1000).get j) /
      (1 + (linspace m.zmin m.zmax 1000).get j) = rate d * valueAt frac d *
        ZModel.prob ((linspace m.zmin m.zmax 1000).get j) (m.dV ((linspace m.zmin m.zmax 1000).get j)) (lamb d) := by
    intro j hj
    have := hz j hj
    rw [ZModel.prob, Real.rpow_sub_one (by linarith)]; ring
  refine ⟨fun z => ZModel.prob z (m.dV z) (lamb d) / m.normalization (lamb d), ⟨_, e, fun j hj => ?_, ?_⟩, e, fun twoD i h1 h2 => ?_⟩
  · rw [key j hj]; field_simp
  · rw [trapz_congr (fun j hj => key j hj) fun _ _ => rfl, trapz_smul]; rfl
  · rw [ZModel.call, if_pos h2, div_fin hN.ne']
    congr 3
    cases twoD <;> rfl

/-- **C90 (power law with spline).**  The first spline coefficient is 0, the others are the posterior's. -/
theorem C90_powerlaw_spline_rate (n : ℕ) (dV : ℝ → ℝ) (zpe zinj : Arr ℝ) (m : PLSpline)
    (h : PLSpline.make n dV zpe zinj .logX = .ok m) (hmin : 0 < m.parent.zmin) (hlt : m.parent.zmin < m.parent.zmax)
    (hdV : ∀ x, m.parent.zmin ≤ x → x ≤ m.parent.zmax → 0 < dV x) (lamb : ℕ → ℝ) (zcs : ℕ → ℕ → ℝ) (rate : ℕ → ℝ) (frac : Option (ℕ → ℝ)) (d : ℕ)
    {c : ℕ → ℝ} (hc0 : c 0 = 0) (hc : ∀ i, c (i + 1) = zcs d i) :
    ∃ (N : ℝ) (ρ : ℝ → ℝ), m.normalization (lamb d) c = fin N ∧ 0 < N ∧
      RateCurve dV (linspace m.parent.zmin m.parent.zmax 1000).get (powerlawSplineRate m lamb zcs rate frac d) (rate d * valueAt frac d * N) ρ ∧
      ∀ (twoD : Bool) (i : ℕ), 0 < (if twoD then zpe else zinj).get i → (if twoD then zpe else zinj).get i ≤ m.parent.zmax →
        m.call twoD (if twoD then zpe else zinj) (lamb d) c i = fin (ρ ((if twoD then zpe else zinj).get i)) := by
  obtain rfl : c = prependZero (zcs d) := by
    funext i
    cases i
    · exact hc0
    · exact hc _
  obtain ⟨hp, s, hs, hI⟩ := PLSpline.make_ok h
  have e1 : m.parent.dV = dV := by rw [hp]
  have e2 : m.parent.zpe = zpe := by rw [hp]
  have e3 : m.parent.zinj = zinj := by rw [hp]
  have hz : ∀ j < 1000, 0 < (linspace m.parent.zmin m.parent.zmax 1000).get j := fun j hj => hmin.trans_le (_root_.linspace_mem hlt.le (by norm_num) hj).1
  have hw : ∀ x, m.parent.zmin ≤ x → x ≤ m.parent.zmax → 0 < plWeight m.parent.dV (lamb d) s (prependZero (zcs d)) x := fun x h1 h2 =>
    mul_pos (mul_pos (by rw [e1]; exact hdV x h1 h2) (Real.rpow_pos_of_pos (by linarith) _)) (Real.exp_pos _)
  obtain ⟨hpos, -⟩ := unitOnGrid_of_pos hlt hw
  have hn := PLSpline.norm_eq hI (lamb d) (prependZero (zcs d)) hmin hlt
  have e : ∀ j < 1000, powerlawSplineRate m lamb zcs rate frac d j = fin (rate d * valueAt frac d *
      (1 + (linspace m.parent.zmin m.parent.zmax 1000).get j) ^ lamb d *
      Real.exp (logXSum s (prependZero (zcs d)) ((linspace m.parent.zmin m.parent.zmax 1000).get j))) := by
    intro j hj
    have := hz j hj
    simp only [powerlawSplineRate, orOnes_eq, hI]
    rw [eval_logX_false]
    simp only [ZModel.zs]
    rw [one_def, add_fin, pow_fin_pos (by linarith), mul_fin, mul_fin, exp_fin, mul_fin]
  have key : ∀ j < 1000, rate d * valueAt frac d * (1 + (linspace m.parent.zmin m.parent.zmax 1000).get j) ^ lamb d *
      Real.exp (logXSum s (prependZero (zcs d)) ((linspace m.parent.zmin m.parent.zmax 1000).get j)) * dV ((linspace m.parent.zmin m.parent.zmax 1000).get j) /
      (1 + (linspace m.parent.zmin m.parent.zmax 1000).get j) = rate d * valueAt frac d *
        plWeight m.parent.dV (lamb d) s (prependZero (zcs d)) ((linspace m.parent.zmin m.parent.zmax 1000).get j) := by
    intro j hj
    have := hz j hj
    rw [plWeight, Real.rpow_sub_one (by linarith), e1]; ring
  refine ⟨_, fun z => plWeight m.parent.dV (lamb d) s (prependZero (zcs d)) z / trapz 1000 (fun i => plWeight m.parent.dV (lamb d) s (prependZero (zcs d)) ((linspace m.parent.zmin m.parent.zmax 1000).get i))
    (linspace m.parent.zmin m.parent.zmax 1000).get, hn, hpos, ⟨_, e, fun j hj => ?_, ?_⟩, fun twoD i h1 h2 => ?_⟩
  · rw [key j hj]
    dsimp only
    rw [mul_assoc (rate d * valueAt frac d), mul_div_cancel₀ _ hpos.ne']
  · rw [trapz_congr (fun j hj => key j hj) fun _ _ => rfl, trapz_smul]
  · rw [PLSpline.call, if_pos h2, hn, PLSpline.prob, hI, eval_logX_false, e2, e3,
      F.one_def, F.add_fin, F.pow_fin_pos (by linarith), F.mul_fin, F.exp, F.mul_fin, F.div_fin hpos.ne']
    dsimp only
    generalize trapz 1000 _ _ = T
    rw [plWeight, fin_inj]
    cases twoD <;> simp only [ZModel.dVdz, e1, e2, e3, if_true, Bool.false_eq_true, if_false]

/-- a concrete model: redshifts between 0.1 and 1, Euclidean volume element, 20 mergers per volume at redshift zero -/
example : let m : ZModel := ⟨fun z => z ^ 2, ⟨2, fun i => if i = 0 then 0.1 else 1⟩, ⟨2, fun i => if i = 0 then 0.05 else 2⟩⟩
    ∃ ρ : ℝ → ℝ, RateCurve (fun z => z ^ 2) (linspace m.zmin m.zmax 1000).get (powerlawRate m (fun _ => 3) (fun _ => 20) none 5)
      (20 * 1 * m.normalization 3) ρ := by
  intro m
  have h1 : m.zmin = 0.1 := by
    simp only [m, ZModel.zmin, arrMin, List.range_succ, List.range_zero]
    norm_num
  have h2 : m.zmax = 1 := by
    simp only [m, ZModel.zmax, arrMax, List.range_succ, List.range_zero]
    norm_num
  obtain ⟨ρ, h, -⟩ := C90_powerlaw_rate m (by rw [h1]; norm_num) (by rw [h1, h2]; norm_num)
    (fun x hx _ => by rw [h1] at hx; have : (0 : ℝ) < x := by linarith
                      exact pow_pos this 2) (fun _ => 3) (fun _ => 20) none 5
  exact ⟨ρ, h⟩

example : ∃ (m : PLSpline), PLSpline.make 6 (fun z => z ^ 2) ⟨2, fun i => if i = 0 then 0.1 else 1⟩ ⟨2, fun i => if i = 0 then 0.05 else 2⟩ .logX = .ok m ∧
    ∃ (N : ℝ) (ρ : ℝ → ℝ), 0 < N ∧ RateCurve (fun z => z ^ 2) (linspace m.parent.zmin m.parent.zmax 1000).get
      (powerlawSplineRate m (fun _ => 3) (fun _ i => i) (fun _ => 20) none 5) (20 * 1 * N) ρ := by
  obtain ⟨I, hI⟩ := Interp.make_exists .logX 6 (ZModel.mk (fun z => z ^ 2) ⟨2, fun i => if i = 0 then 0.1 else 1⟩
    ⟨2, fun i => if i = 0 then 0.05 else 2⟩).zmin (ZModel.mk (fun z => z ^ 2) ⟨2, fun i => if i = 0 then 0.1 else 1⟩
    ⟨2, fun i => if i = 0 then 0.05 else 2⟩).zmax 4 false (by norm_num) (by norm_num)
  have hm : PLSpline.make 6 (fun z => z ^ 2) ⟨2, fun i => if i = 0 then 0.1 else 1⟩ ⟨2, fun i => if i = 0 then 0.05 else 2⟩ .logX = .ok
      ⟨⟨fun z => z ^ 2, ⟨2, fun i => if i = 0 then 0.1 else 1⟩, ⟨2, fun i => if i = 0 then 0.05 else 2⟩⟩, I⟩ := by
    rw [PLSpline.make]; simp only [hI]; rfl
  refine ⟨_, hm, ?_⟩
  have h1 : (ZModel.mk (fun z => z ^ 2) ⟨2, fun i => if i = 0 then 0.1 else 1⟩ ⟨2, fun i => if i = 0 then 0.05 else 2⟩).zmin = 0.1 := by
    simp only [ZModel.zmin, arrMin, List.range_succ, List.range_zero]
    norm_num
  have h2 : (ZModel.mk (fun z => z ^ 2) ⟨2, fun i => if i = 0 then 0.1 else 1⟩ ⟨2, fun i => if i = 0 then 0.05 else 2⟩).zmax = 1 := by
    simp only [ZModel.zmax, arrMax, List.range_succ, List.range_zero]
    norm_num
  obtain ⟨N, ρ, -, hN, h, -⟩ := C90_powerlaw_spline_rate 6 _ _ _ _ hm (by rw [h1]; norm_num) (by rw [h1, h2]; norm_num)
    (fun x hx _ => by rw [h1] at hx; have : (0 : ℝ) < x := by linarith
                      exact pow_pos this 2) (fun _ => 3) (fun _ i => i) (fun _ => 20) none 5 (c := prependZero fun i => i)
    rfl fun _ => rfl
  exact ⟨N, ρ, hN, h⟩

end GW
end
