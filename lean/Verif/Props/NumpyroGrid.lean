import Verif.Model.NumpyroDistributions
import Verif.Lemmas.Interp
import Mathlib.Tactic.IntervalCases

/-! # Properties C28, C29, C74: `PowerlawRedshift` and `BSplineDistribution` -/

open Finset
noncomputable section
open Classical
namespace GW
open F

/-- Specification: running trapezoid integral up to grid point `k`. -/
def runningTrapz (y x : ℕ → ℝ) (k : ℕ) : ℝ := ∑ j ∈ range k, (x (j + 1) - x j) * (y j + y (j + 1)) / 2

theorem running_eq_trapz (n : ℕ) (y x : ℕ → ℝ) : runningTrapz y x (n - 1) = trapz n y x := by
  unfold runningTrapz trapz
  rw [mul_sum]
  exact sum_congr rfl fun i _ => by ring

/-- on an equally spaced grid the tabulated value at index `k` is the true running integral shifted by one cell -/
theorem cumtrapz_shift {n : ℕ} {y x : ℕ → ℝ} {h : ℝ} (hx : ∀ j, j + 1 < n → x (j + 1) - x j = h) {k : ℕ} (hk : k + 2 ≤ n) :
    cumtrapz n y x k = runningTrapz y x (k + 1) - runningTrapz y x 1 := by
  induction k with
  | zero => simp [cumtrapz]
  | succ k ih =>
    have e1 : cumtrapz n y x (k + 1) = cumtrapz n y x k
        + (x (k + 1) - x k) * (y (Nat.min (k + 1) (n - 1)) + y (Nat.min (k + 2) (n - 1))) / 2 := by
      simp only [cumtrapz, sum_range_succ]
    have e2 : runningTrapz y x (k + 1 + 1) = runningTrapz y x (k + 1)
        + (x (k + 1 + 1) - x (k + 1)) * (y (k + 1) + y (k + 1 + 1)) / 2 := by
      simp only [runningTrapz, sum_range_succ]
    rw [e1, e2, ih (by omega), hx k (by omega), hx (k + 1) (by omega)]
    have m1 : Nat.min (k + 1) (n - 1) = k + 1 := by
      show min (k + 1) (n - 1) = k + 1; omega
    have m2 : Nat.min (k + 2) (n - 1) = k + 2 := by
      show min (k + 2) (n - 1) = k + 2; omega
    rw [m1, m2]
    ring

/-- the cdf column both classes store -/
def gridCdf (n : ℕ) (y x : ℕ → ℝ) (i : ℕ) : ℝ := if i = n - 1 then 1 else cumtrapz n y x i

theorem running_inc {y x : ℕ → ℝ} {n k : ℕ} (hy : ∀ i < n, 0 ≤ y i) (hx : IncOn n x) (hk : k + 1 < n) :
    runningTrapz y x k ≤ runningTrapz y x (k + 1) := by
  have : runningTrapz y x (k + 1) = runningTrapz y x k + (x (k + 1) - x k) * (y k + y (k + 1)) / 2 := by
    simp only [runningTrapz, sum_range_succ]
  have h1 := hx k hk
  have h2 := hy k (by omega)
  have h3 := hy (k + 1) hk
  have h4 : 0 ≤ (x (k + 1) - x k) * (y k + y (k + 1)) := mul_nonneg (by linarith) (by linarith)
  rw [this]
  linarith

theorem running_strict {y x : ℕ → ℝ} {n k : ℕ} (hy : ∀ i < n, 0 ≤ y i) (hx : IncOn n x) (hk : k + 1 < n)
    (hp : 0 < y (k + 1)) : runningTrapz y x k < runningTrapz y x (k + 1) := by
  have : runningTrapz y x (k + 1) = runningTrapz y x k + (x (k + 1) - x k) * (y k + y (k + 1)) / 2 := by
    simp only [runningTrapz, sum_range_succ]
  have h1 := hx k hk
  have h2 := hy k (by omega)
  have h4 : 0 < (x (k + 1) - x k) * (y k + y (k + 1)) := mul_pos (by linarith) (by linarith)
  rw [this]
  linarith

theorem gridCdf_zero {n : ℕ} (hn : 2 ≤ n) (y x : ℕ → ℝ) : gridCdf n y x 0 = 0 := by
  rw [gridCdf, if_neg (by omega)]; simp [cumtrapz]

theorem gridCdf_last (n : ℕ) (y x : ℕ → ℝ) : gridCdf n y x (n - 1) = 1 := if_pos rfl

theorem gridCdf_mono {n : ℕ} {y x : ℕ → ℝ} {h : ℝ} (hy : ∀ i < n, 0 ≤ y i) (hh : 0 < h)
    (hx : ∀ j, j + 1 < n → x (j + 1) - x j = h) (htot : trapz n y x = 1) :
    ∀ i, i + 1 < n → gridCdf n y x i ≤ gridCdf n y x (i + 1) := by
  have hinc : IncOn n x := fun i hi => by have := hx i hi; linarith
  intro i hi
  rw [gridCdf, if_neg (by omega), gridCdf]
  by_cases hl : i + 1 = n - 1
  · rw [if_pos hl, cumtrapz_shift hx (by omega), hl, running_eq_trapz, htot]
    have := running_inc (k := 0) hy hinc (by omega)
    have h0 : runningTrapz y x 0 = 0 := by simp [runningTrapz]
    linarith
  · rw [if_neg hl, cumtrapz_shift hx (by omega), cumtrapz_shift hx (by omega)]
    have := running_inc (k := i + 1) hy hinc (by omega)
    linarith

theorem gridCdf_strict {n : ℕ} {y x : ℕ → ℝ} {h : ℝ} (hy : ∀ i < n, 0 ≤ y i) (hpos : ∀ i, 0 < i → i < n → 0 < y i)
    (hh : 0 < h) (hx : ∀ j, j + 1 < n → x (j + 1) - x j = h) (htot : trapz n y x = 1) :
    IncOn n (gridCdf n y x) := by
  have hinc : IncOn n x := fun i hi => by have := hx i hi; linarith
  intro i hi
  rw [gridCdf, if_neg (by omega), gridCdf]
  by_cases hl : i + 1 = n - 1
  · rw [if_pos hl, cumtrapz_shift hx (by omega), hl, running_eq_trapz, htot]
    have := running_strict (k := 0) hy hinc (by omega) (hpos 1 (by omega) (by omega))
    have h0 : runningTrapz y x 0 = 0 := by simp [runningTrapz]
    linarith
  · rw [if_neg hl, cumtrapz_shift hx (by omega), cumtrapz_shift hx (by omega)]
    have := running_strict (k := i + 1) hy hinc (by omega) (hpos (i + 2) (by omega) (by omega))
    linarith

/-! ## PowerlawRedshift -/

/-- Inputs a caller supplies: at least two redshifts, strictly increasing and above -1, comoving-volume factors
non-negative and positive after the first grid point (`dVc/dz(0) = 0`). -/
structure PLRedshift.OK (d : PLRedshift) : Prop where
  two : 2 ≤ d.n
  inc : IncOn d.n d.zs
  zpos : ∀ i < d.n, -1 < d.zs i
  nonneg : ∀ i < d.n, 0 ≤ d.dVdc i
  pos : ∀ i, 0 < i → i < d.n → 0 < d.dVdc i

namespace PLRedshift
variable {d : PLRedshift}

theorem OK.raw_nonneg (h : d.OK) : ∀ i < d.n, 0 ≤ d.rawPdfs i := fun i hi =>
  mul_nonneg (h.nonneg i hi) (Real.rpow_nonneg (by linarith [h.zpos i hi]) _)

theorem OK.raw_pos (h : d.OK) : ∀ i, 0 < i → i < d.n → 0 < d.rawPdfs i := fun i h0 hi =>
  mul_pos (h.pos i h0 hi) (Real.rpow_pos_of_pos (by linarith [h.zpos i hi]) _)

theorem OK.norm_pos (h : d.OK) : 0 < d.norm := by
  have hn := h.two
  unfold norm
  rw [← running_eq_trapz]
  have mono : ∀ k, 1 ≤ k → k < d.n → 0 < runningTrapz d.rawPdfs d.zs k := by
    intro k hk
    induction k, hk using Nat.le_induction with
    | base =>
      intro hl
      have := running_strict (k := 0) h.raw_nonneg h.inc hl (h.raw_pos 1 (by omega) hl)
      have h0 : runningTrapz d.rawPdfs d.zs 0 = 0 := by simp [runningTrapz]
      linarith
    | succ k hk ih =>
      intro hl
      have := running_inc (k := k) h.raw_nonneg h.inc hl
      linarith [ih (by omega)]
  exact mono (d.n - 1) (by omega) (by omega)

theorem OK.trapz_pdfs (h : d.OK) : trapz d.n d.pdfs d.zs = 1 := by
  have := trapz_div d.n d.norm d.rawPdfs d.zs
  have e : trapz d.n d.rawPdfs d.zs = d.norm := rfl
  rw [e, div_self h.norm_pos.ne'] at this
  exact this

theorem OK.pdfs_nonneg (h : d.OK) : ∀ i < d.n, 0 ≤ d.pdfs i := fun i hi =>
  div_nonneg (h.raw_nonneg i hi) h.norm_pos.le

theorem OK.pdfs_pos (h : d.OK) : ∀ i, 0 < i → i < d.n → 0 < d.pdfs i := fun i h0 hi =>
  div_pos (h.raw_pos i h0 hi) h.norm_pos

theorem cdfgrid_eq (d : PLRedshift) : d.cdfgrid = gridCdf d.n d.pdfs d.zs := rfl
end PLRedshift
open PLRedshift

/-- **C29.** At every grid redshift up to `maximum`, `exp(log_prob)` is the stored normalised density; if the grid ends
at or below `maximum` these values have trapezoid integral exactly 1; above `maximum` the log-density is the large
negative finite constant. -/
theorem C29_redshift_density (d : PLRedshift) (h : d.OK) :
    (∀ i < d.n, d.zs i ≤ d.maximum → ∃ p : ℝ, 0 ≤ p ∧ exp (d.log_prob (d.zs i)) = fin p) ∧
    ((∀ i < d.n, d.zs i ≤ d.maximum) →
      trapz d.n (fun i => (exp (d.log_prob (d.zs i))).toReal) d.zs = 1) ∧
    (∀ z, d.maximum < z → d.log_prob z = fin (-BIG)) := by
  have key : ∀ i < d.n, d.zs i ≤ d.maximum → exp (d.log_prob (d.zs i)) = fin (d.pdfs i) := by
    intro i hi hz
    have hz1 : 0 < 1 + d.zs i := by linarith [h.zpos i hi]
    have hN := h.norm_pos
    simp only [log_prob, interp_node h.two h.inc hi]
    rw [if_pos (by simpa using hz), one_def, add_fin, log_fin hz1, log_fin hN, sub_fin, mul_fin]
    rcases (h.nonneg i hi).eq_or_lt with h0 | h0
    · rw [← h0, log_zero]
      simp [pdfs, rawPdfs, ← h0]
    · rw [log_fin h0, add_fin, sub_fin, exp_fin, Real.exp_sub, Real.exp_add, Real.exp_log h0, Real.exp_log hN,
        mul_comm (d.lamb - 1), ← Real.rpow_def_of_pos hz1]
      rfl
  refine ⟨fun i hi hz => ⟨_, h.pdfs_nonneg i hi, key i hi hz⟩, fun hall => ?_, ?_⟩
  · rw [trapz_congr (y' := d.pdfs) (x' := d.zs) (fun i hi => by rw [key i hi (hall i hi), toReal_fin]) (fun _ _ => rfl)]
    exact h.trapz_pdfs
  · intro z hz
    simp only [log_prob]
    rw [if_neg (by simpa using hz)]; rfl

/-- **C29.** Where the caller passes the volume factor explicitly, the log-density uses it. -/
theorem C29_redshift_explicit_volume (d : PLRedshift) (h : d.OK) (z v : ℝ) (hz : -1 < z) (hm : z ≤ d.maximum) (hv : 0 < v) :
    exp (d.log_prob z (some v)) = fin (v * (1 + z) ^ (d.lamb - 1) / d.norm) := by
  have hz1 : 0 < 1 + z := by linarith
  have hN := h.norm_pos
  simp only [log_prob]
  rw [if_pos (by simpa using hm), one_def, add_fin, log_fin hz1, log_fin hN, sub_fin, mul_fin, log_fin hv, add_fin, sub_fin,
    exp_fin, Real.exp_sub, Real.exp_add, Real.exp_log hv, Real.exp_log hN, mul_comm (d.lamb - 1),
    ← Real.rpow_def_of_pos hz1]

/-- **C28, the part that holds.** On an equally spaced grid the stored cdf starts at 0, ends at 1, is non-decreasing
on the whole line, and icdf and cdf are inverse to each other. -/
theorem C28_redshift_cdf_partial (d : PLRedshift) (h : d.OK) (s : ℝ) (hs : 0 < s)
    (hu : ∀ j, j + 1 < d.n → d.zs (j + 1) - d.zs j = s) :
    d.cdf (d.zs 0) = 0 ∧ d.cdf (d.zs (d.n - 1)) = 1 ∧ Monotone d.cdf ∧
    (∀ x, d.zs 0 ≤ x → x ≤ d.zs (d.n - 1) → d.icdf (d.cdf x) = x) ∧
    (∀ q, 0 ≤ q → q ≤ 1 → d.cdf (d.icdf q) = q) := by
  have hn := h.two
  have hstrict := gridCdf_strict h.pdfs_nonneg h.pdfs_pos hs hu h.trapz_pdfs
  have e0 : d.cdfgrid 0 = 0 := gridCdf_zero hn _ _
  have e1 : d.cdfgrid (d.n - 1) = 1 := gridCdf_last _ _ _
  refine ⟨?_, ?_, ?_, ?_, ?_⟩
  · rw [cdf, interp_node hn h.inc (by omega), e0]
  · rw [cdf, interp_node hn h.inc (by omega), e1]
  · exact interp_mono hn h.inc (gridCdf_mono h.pdfs_nonneg hs hu h.trapz_pdfs)
  · intro x h1 h2
    exact interp_inverse hn h.inc hstrict h1 h2
  · intro q h1 h2
    exact interp_inverse hn hstrict h.inc (by rw [← cdfgrid_eq, e0]; exact h1) (by rw [← cdfgrid_eq, e1]; exact h2)

/-- example inputs: three redshifts, flat volume factor vanishing at zero -/
def exampleRedshift : PLRedshift := ⟨3, 1, 2, fun i => i, fun i => if i = 0 then 0 else 2⟩

theorem exampleRedshift_ok : exampleRedshift.OK where
  two := by norm_num [exampleRedshift]
  inc := fun i _ => by simp [exampleRedshift]
  zpos := fun i _ => by
    have : (0:ℝ) ≤ i := Nat.cast_nonneg i
    simp only [exampleRedshift]; linarith
  nonneg := fun i _ => by simp only [exampleRedshift]; split_ifs <;> norm_num
  pos := fun i h0 _ => by simp only [exampleRedshift]; rw [if_neg h0.ne']; norm_num

/-- **C28 fails**: already on an equally spaced three-point grid the stored cdf at the middle point is `2/3`, while the
running integral of the density there is `1/3`. -/
theorem C28_cdf_is_not_running_integral_fails :
    exampleRedshift.OK ∧ exampleRedshift.cdf (exampleRedshift.zs 1) = 2 / 3 ∧
    runningTrapz exampleRedshift.pdfs exampleRedshift.zs 1 = 1 / 3 := by
  have hN : exampleRedshift.norm = 3 := by
    simp only [PLRedshift.norm, trapz, rawPdfs, exampleRedshift]
    norm_num [sum_range_succ]
  have hp : ∀ i, exampleRedshift.pdfs i = if i = 0 then 0 else 2 / 3 := by
    intro i
    rw [pdfs, hN]
    simp only [rawPdfs, exampleRedshift]
    split_ifs <;> simp
  refine ⟨exampleRedshift_ok, ?_, ?_⟩
  · rw [cdf, interp_node exampleRedshift_ok.two exampleRedshift_ok.inc (by norm_num [exampleRedshift])]
    have : exampleRedshift.n = 3 := rfl
    rw [cdfgrid, this, if_neg (by norm_num), cumtrapz]
    simp only [sum_range_succ, sum_range_zero, hp]
    norm_num [exampleRedshift]
  · simp only [runningTrapz, sum_range_succ, sum_range_zero, hp]
    norm_num [exampleRedshift]

/-- unequally spaced example -/
def exampleUneven : PLRedshift := ⟨3, 1, 11, fun i => if i = 0 then 0 else if i = 1 then 10 else 10 + ((i : ℝ) - 1), fun i => if i = 0 then 0 else 1⟩

/-- **C28 fails**: on an unequally spaced grid the stored cdf is not even monotone: it exceeds 1 inside the grid. -/
theorem C28_cdf_exceeds_one_fails :
    exampleUneven.OK ∧ 1 < exampleUneven.cdf (exampleUneven.zs 1) ∧ exampleUneven.cdf (exampleUneven.zs 2) = 1 := by
  have ok : exampleUneven.OK := by
    refine ⟨by norm_num [exampleUneven], ?_, ?_, ?_, ?_⟩
    · intro i hi
      have : i < 2 := by simp only [exampleUneven] at hi; omega
      interval_cases i <;> norm_num [exampleUneven]
    · intro i hi
      have : i < 3 := hi
      interval_cases i <;> norm_num [exampleUneven]
    · intro i _; simp only [exampleUneven]; split_ifs <;> norm_num
    · intro i h0 _; simp only [exampleUneven]; rw [if_neg h0.ne']; norm_num
  have hN : exampleUneven.norm = 6 := by
    simp only [PLRedshift.norm, trapz, rawPdfs, exampleUneven]
    norm_num [sum_range_succ]
  have hp : ∀ i, exampleUneven.pdfs i = if i = 0 then 0 else 1 / 6 := by
    intro i
    rw [pdfs, hN]
    simp only [rawPdfs, exampleUneven]
    split_ifs <;> simp
  have hn : exampleUneven.n = 3 := rfl
  refine ⟨ok, ?_, ?_⟩
  · rw [cdf, interp_node ok.two ok.inc (by norm_num [exampleUneven]), cdfgrid, hn, if_neg (by norm_num), cumtrapz]
    simp only [sum_range_succ, sum_range_zero, hp]
    have m1 : Nat.min (0 + 1) (3 - 1) = 1 := rfl
    have m2 : Nat.min (0 + 2) (3 - 1) = 2 := rfl
    rw [m1, m2]
    norm_num [exampleUneven]
  · rw [cdf, interp_node ok.two ok.inc (by norm_num [exampleUneven])]
    exact gridCdf_last 3 _ _

/-! ## BSplineDistribution -/

namespace BSplineDist

/-- Inputs a caller supplies when the grid lies inside the spline support: finite design matrix, increasing grid. -/
structure OK (d : BSplineDist) (B : ℕ → ℕ → ℝ) : Prop where
  two : 2 ≤ d.n
  inc : IncOn d.n d.grid
  fin : ∀ j < d.m, ∀ i < d.n, d.dmat j i = F.fin (B j i)

variable {d : BSplineDist} {B : ℕ → ℕ → ℝ}

/-- log-density before normalisation -/
def lin (d : BSplineDist) (B : ℕ → ℕ → ℝ) (i : ℕ) : ℝ := ∑ j ∈ range d.m, d.cs j * B j i

theorem OK.lpdfs_eq (h : d.OK B) {i : ℕ} (hi : i < d.n) : d.lpdfs i = F.fin (d.lin B i) := by
  have : ∑ j ∈ range d.m, F.fin (d.cs j) * d.dmat j i = F.fin (d.lin B i) := by
    rw [lin, ← sum_fin]
    exact sum_congr rfl fun j hj => by rw [h.fin j (mem_range.1 hj) i hi, mul_fin]
  simp only [lpdfs, this]; simp

theorem OK.norm_eq (h : d.OK B) : d.norm = F.fin (trapz d.n (fun i => Real.exp (d.lin B i)) d.grid) := by
  rw [norm, ← trapzF_fin]
  exact trapzF_congr (fun i hi => by rw [rawPdfs, h.lpdfs_eq hi, exp_fin]) (fun _ _ => rfl)

theorem OK.norm_pos (h : d.OK B) : 0 < trapz d.n (fun i => Real.exp (d.lin B i)) d.grid :=
  trapz_pos h.two (fun _ _ => Real.exp_pos _) h.inc

theorem interpF_node {n : ℕ} (hn : 2 ≤ n) {xp : ℕ → ℝ} {fp : ℕ → F} {g : ℕ → ℝ}
    (hf : ∀ i < n, fp i = F.fin (g i)) (x : ℝ) : interpF n xp fp x = F.fin (interp n xp g x) := by
  unfold interpF interp
  have hi : Nat.min (Nat.max (countLE n xp x) 1) (n - 1) = min (max (countLE n xp x) 1) (n - 1) := rfl
  simp only [hi]
  set i := min (max (countLE n xp x) 1) (n - 1) with hidef
  have hin : i < n := by omega
  rw [hf 0 (by omega), hf (n - 1) (by omega), hf i hin, hf (i - 1) (by omega)]
  split_ifs <;> simp

theorem OK.pdfs_eq (h : d.OK B) {i : ℕ} (hi : i < d.n) :
    d.pdfs i = F.fin (Real.exp (d.lin B i) / trapz d.n (fun i => Real.exp (d.lin B i)) d.grid) := by
  rw [pdfs, rawPdfs, h.lpdfs_eq hi, h.norm_eq, exp_fin, div_fin h.norm_pos.ne']

end BSplineDist
open BSplineDist

/-- **C74.** With a finite design matrix: at every real value `log_prob` is a finite number, and the density at the
grid points has trapezoid integral exactly 1.  Partial; missing: zero density outside the support: `C74_outside_support_fails`. -/
theorem C74_bspline_density_partial (d : BSplineDist) (B : ℕ → ℕ → ℝ) (h : d.OK B) :
    (∀ x, ∃ l : ℝ, d.log_prob x = fin l) ∧
    trapz d.n (fun i => (exp (d.log_prob (d.grid i))).toReal) d.grid = 1 := by
  have hN := h.norm_pos
  have e : ∀ x, d.log_prob x = fin (interp d.n d.grid (d.lin B) x
      - Real.log (trapz d.n (fun i => Real.exp (d.lin B i)) d.grid)) := by
    intro x
    rw [BSplineDist.log_prob, interpF_node h.two (fun i hi => h.lpdfs_eq hi), h.norm_eq, log_fin hN, sub_fin]
  refine ⟨fun x => ⟨_, e x⟩, ?_⟩
  rw [trapz_congr (y' := fun i => Real.exp (d.lin B i) / trapz d.n (fun i => Real.exp (d.lin B i)) d.grid)
    (x' := d.grid) ?_ (fun _ _ => rfl), trapz_div, div_self hN.ne']
  intro i hi
  rw [e, interp_node h.two h.inc hi, exp_fin, toReal_fin, Real.exp_sub, Real.exp_log hN]

/-- **C74 fails** when two neighbouring grid points lie outside the spline support (NaN design matrix columns, the
case the source comment mentions): `log_prob` at any value of that cell is NaN instead of `-inf`. -/
theorem C74_outside_support_fails (d : BSplineDist) (hinc : IncOn d.n d.grid) (i : ℕ) (hi : i + 1 < d.n)
    (h1 : isnan (∑ j ∈ range d.m, fin (d.cs j) * d.dmat j i))
    (h2 : isnan (∑ j ∈ range d.m, fin (d.cs j) * d.dmat j (i + 1))) (x : ℝ) (hx1 : d.grid i ≤ x) (hx2 : x < d.grid (i + 1)) :
    d.log_prob x = F.nan := by
  have hlt := hinc i hi
  have h0 : ¬ x < d.grid 0 := not_lt.2 ((hinc.le (Nat.zero_le i) (by omega)).trans hx1)
  have hl : ¬ d.grid (d.n - 1) < x := not_lt.2 (hx2.le.trans (hinc.le (by omega) (by omega)))
  have e : Nat.min (Nat.max (countLE d.n d.grid x) 1) (d.n - 1) = i + 1 := by
    rw [countLE_cell hinc hi hx1 hx2]
    show min (max (i + 1) 1) (d.n - 1) = i + 1
    omega
  have n1 : d.lpdfs i = ninf := by simp only [lpdfs, if_pos h1]
  have n2 : d.lpdfs (i + 1) = ninf := by simp only [lpdfs, if_pos h2]
  simp only [BSplineDist.log_prob, interpF, e, Nat.add_sub_cancel, if_neg h0, if_neg hl, n1, n2]
  rw [if_neg (by linarith)]
  simp

/-- **C28 (BSplineDistribution), the part that holds.** On an equally spaced grid with finite design matrix the cdf
starts at 0, ends at 1, is non-decreasing, and icdf and cdf are inverse. -/
theorem C28_bspline_cdf_partial (d : BSplineDist) (B : ℕ → ℕ → ℝ) (h : d.OK B) (s : ℝ) (hs : 0 < s)
    (hu : ∀ j, j + 1 < d.n → d.grid (j + 1) - d.grid j = s) :
    d.cdf (d.grid 0) = 0 ∧ d.cdf (d.grid (d.n - 1)) = 1 ∧ Monotone d.cdf ∧
    (∀ x, d.grid 0 ≤ x → x ≤ d.grid (d.n - 1) → d.icdf (d.cdf x) = x) ∧
    (∀ q, 0 ≤ q → q ≤ 1 → d.cdf (d.icdf q) = q) := by
  have hn := h.two
  have hpos : ∀ i < d.n, 0 < (d.pdfs i).toReal := fun i hi => by
    rw [h.pdfs_eq hi, toReal_fin]; exact div_pos (Real.exp_pos _) h.norm_pos
  have htot : trapz d.n (fun i => (d.pdfs i).toReal) d.grid = 1 := by
    rw [trapz_congr (y' := fun i => Real.exp (d.lin B i) / trapz d.n (fun i => Real.exp (d.lin B i)) d.grid)
      (x' := d.grid) (fun i hi => by rw [h.pdfs_eq hi, toReal_fin]) (fun _ _ => rfl), trapz_div,
      div_self h.norm_pos.ne']
  have hstrict : IncOn d.n d.cdfgrid := gridCdf_strict (fun i hi => (hpos i hi).le) (fun i _ hi => hpos i hi) hs hu htot
  have e0 : d.cdfgrid 0 = 0 := gridCdf_zero hn _ _
  have e1 : d.cdfgrid (d.n - 1) = 1 := gridCdf_last _ _ _
  refine ⟨?_, ?_, ?_, ?_, ?_⟩
  · rw [BSplineDist.cdf, interp_node hn h.inc (by omega), e0]
  · rw [BSplineDist.cdf, interp_node hn h.inc (by omega), e1]
  · exact interp_mono hn h.inc (gridCdf_mono (fun i hi => (hpos i hi).le) hs hu htot)
  · intro x h1 h2
    exact interp_inverse hn h.inc hstrict h1 h2
  · intro q h1 h2
    exact interp_inverse hn hstrict h.inc (by rw [e0]; exact h1) (by rw [e1]; exact h2)

example : (BSplineDist.mk 5 2 (fun _ => 1) (fun i => i) (fun j i => fin (j * i))).OK (fun j i => j * i) :=
  ⟨by norm_num, fun i _ => by simp, fun _ _ _ _ => rfl⟩

end GW
end
