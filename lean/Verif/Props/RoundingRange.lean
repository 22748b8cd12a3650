import Verif.Props.RoundingLogSplineExact

/-! # Property C151: the ends of the range of a spline in `log x`, in single precision -/

open Finset
noncomputable section
open Classical
namespace GW
open F

/-- the value of `rd32` before the test for overflow -/
def near32 (x : ℝ) : ℝ := (round (x / ulp32 x) : ℝ) * ulp32 x

theorem round_mono' {a b : ℝ} (h : a ≤ b) : round a ≤ round b := by
  rw [round_eq, round_eq]
  exact Int.floor_le_floor (by linarith)

theorem near32_mono {x y : ℝ} (h : x ≤ y) : near32 x ≤ near32 y := by
  have hux := ulp32_pos x
  have huy := ulp32_pos y
  -- zero keeps its place
  by_cases hxy : x ≤ 0 ∧ 0 ≤ y
  · have h1 := round_mono' (div_nonpos_of_nonpos_of_nonneg hxy.1 hux.le)
    have h2 := round_mono' (div_nonneg hxy.2 huy.le)
    rw [round_zero] at h1 h2
    have h3 : (round (x / ulp32 x) : ℝ) ≤ 0 := by exact_mod_cast h1
    have h4 : (0:ℝ) ≤ (round (y / ulp32 y) : ℝ) := by exact_mod_cast h2
    exact (mul_nonpos_of_nonpos_of_nonneg h3 hux.le).trans (mul_nonneg h4 huy.le)
  have hx00 : x ≠ 0 := by rintro rfl; exact hxy ⟨le_rfl, h⟩
  have hy00 : y ≠ 0 := by rintro rfl; exact hxy ⟨h, le_rfl⟩
  set ex := max (Int.log 2 |x|) (-126) with hex
  set ey := max (Int.log 2 |y|) (-126) with hey
  have ux : ulp32 x = 2 ^ (ex - 23) := rfl
  have uy : ulp32 y = 2 ^ (ey - 23) := rfl
  -- a number is below twice the power of two of its exponent
  have up : ∀ z : ℝ, |z| ≤ ulp32 z * 2 ^ 24 := by
    intro z
    have h1 : |z| < 2 ^ (Int.log 2 |z| + 1) := by exact_mod_cast Int.lt_zpow_succ_log_self (R := ℝ) one_lt_two |z|
    have h2 : (2:ℝ) ^ (Int.log 2 |z| + 1) ≤ 2 ^ (max (Int.log 2 |z|) (-126) + 1) := zpow_le_zpow_right₀ one_le_two (by have := le_max_left (Int.log 2 |z|) (-126); omega)
    have h3 : ulp32 z * 2 ^ 24 = 2 ^ (max (Int.log 2 |z|) (-126) + 1) := by
      unfold ulp32
      rw [← zpow_natCast, ← zpow_add₀ (by norm_num)]
      congr 1; push_cast; ring
    rw [h3]; linarith
  -- and at least that power of two, above the smallest exponent
  have lo : ∀ z : ℝ, z ≠ 0 → -126 < max (Int.log 2 |z|) (-126) → ulp32 z * 2 ^ 23 ≤ |z| := by
    intro z hz0 hz
    have hl : max (Int.log 2 |z|) (-126) = Int.log 2 |z| := by
      rcases max_choice (Int.log 2 |z|) (-126) with e | e
      · exact e
      · omega
    have h0 : 0 < |z| := abs_pos.2 hz0
    have h1 : (2:ℝ) ^ Int.log 2 |z| ≤ |z| := by exact_mod_cast Int.zpow_log_le_self (R := ℝ) one_lt_two h0
    have h3 : ulp32 z * 2 ^ 23 = 2 ^ (Int.log 2 |z|) := by
      unfold ulp32
      rw [hl, ← zpow_natCast, ← zpow_add₀ (by norm_num)]
      congr 1; push_cast; ring
    rw [h3]; exact h1
  have hi_le : ∀ z : ℝ, near32 z ≤ ulp32 z * 2 ^ 24 := by
    intro z
    have hz := ulp32_pos z
    have h1 : z / ulp32 z ≤ ((2 ^ 24 : ℤ) : ℝ) := by rw [div_le_iff₀ hz]; push_cast; linarith [le_abs_self z, up z]
    have h2 := round_mono' h1
    rw [round_intCast] at h2
    have h3 : (round (z / ulp32 z) : ℝ) ≤ ((2 ^ 24 : ℤ) : ℝ) := by exact_mod_cast h2
    push_cast at h3
    unfold near32; nlinarith
  have lo_ge : ∀ z : ℝ, -(ulp32 z * 2 ^ 24) ≤ near32 z := by
    intro z
    have hz := ulp32_pos z
    have h1 : ((-(2 ^ 24) : ℤ) : ℝ) ≤ z / ulp32 z := by rw [le_div_iff₀ hz]; push_cast; linarith [neg_abs_le z, up z]
    have h2 := round_mono' h1
    rw [round_intCast] at h2
    have h3 : ((-(2 ^ 24) : ℤ) : ℝ) ≤ (round (z / ulp32 z) : ℝ) := by exact_mod_cast h2
    push_cast at h3
    unfold near32; nlinarith
  have step : ∀ {i j : ℤ}, i < j → (2:ℝ) ^ (i - 23) * 2 ^ 24 ≤ 2 ^ (j - 23) * 2 ^ 23 := by
    intro i j hij
    have : (2:ℝ) ^ (i - 23) * 2 ≤ 2 ^ (j - 23) := by
      rw [← zpow_add_one₀ (by norm_num)]
      exact zpow_le_zpow_right₀ one_le_two (by omega)
    nlinarith
  rcases lt_trichotomy ex ey with hlt | heq | hgt
  · -- larger exponent of the larger number
    have hyabs := lo y hy00 (by have := le_max_right (Int.log 2 |x|) (-126); omega)
    have hs := step hlt
    rw [← ux, ← uy] at hs
    have hy0 : 0 ≤ y := by
      by_contra hc
      push Not at hc
      have h1 : |x| ≤ ulp32 x * 2 ^ 24 := up x
      have h2 : |y| ≤ |x| := by rw [abs_of_neg hc, abs_of_neg (by linarith)]; linarith
      have h4 : |y| < ulp32 x * 2 ^ 24 := lt_of_le_of_lt h2 (by
        have h5 : |x| < 2 ^ (Int.log 2 |x| + 1) := by exact_mod_cast Int.lt_zpow_succ_log_self (R := ℝ) one_lt_two |x|
        have h6 : (2:ℝ) ^ (Int.log 2 |x| + 1) ≤ 2 ^ (ex + 1) := zpow_le_zpow_right₀ one_le_two (by have := le_max_left (Int.log 2 |x|) (-126); omega)
        have h7 : ulp32 x * 2 ^ 24 = 2 ^ (ex + 1) := by
          rw [ux, ← zpow_natCast, ← zpow_add₀ (by norm_num)]
          congr 1; push_cast; ring
        rw [h7]; linarith)
      linarith
    rw [abs_of_nonneg hy0] at hyabs
    have h1 : ((2 ^ 23 : ℤ) : ℝ) ≤ y / ulp32 y := by rw [le_div_iff₀ huy]; push_cast; linarith
    have h2 := round_mono' h1
    rw [round_intCast] at h2
    have h3 : ((2 ^ 23 : ℤ) : ℝ) ≤ (round (y / ulp32 y) : ℝ) := by exact_mod_cast h2
    push_cast at h3
    have h4 : ulp32 y * 2 ^ 23 ≤ near32 y := by unfold near32; nlinarith
    linarith [hi_le x]
  · -- the same spacing
    have e : ulp32 x = ulp32 y := by rw [ux, uy, heq]
    unfold near32
    rw [e]
    have h1 := round_mono' (div_le_div_of_nonneg_right h huy.le)
    have h2 : (round (x / ulp32 y) : ℝ) ≤ (round (y / ulp32 y) : ℝ) := by exact_mod_cast h1
    exact mul_le_mul_of_nonneg_right h2 huy.le
  · -- larger exponent of the smaller number: it is negative
    have hxabs := lo x hx00 (by have := le_max_right (Int.log 2 |y|) (-126); omega)
    have hs := step hgt
    rw [← ux, ← uy] at hs
    have hx0 : x ≤ 0 := by
      by_contra hc
      push Not at hc
      have h2 : |x| ≤ |y| := by rw [abs_of_pos hc, abs_of_pos (by linarith)]; exact h
      have h4 : |y| < ulp32 y * 2 ^ 24 := by
        have h5 : |y| < 2 ^ (Int.log 2 |y| + 1) := by exact_mod_cast Int.lt_zpow_succ_log_self (R := ℝ) one_lt_two |y|
        have h6 : (2:ℝ) ^ (Int.log 2 |y| + 1) ≤ 2 ^ (ey + 1) := zpow_le_zpow_right₀ one_le_two (by have := le_max_left (Int.log 2 |y|) (-126); omega)
        have h7 : ulp32 y * 2 ^ 24 = 2 ^ (ey + 1) := by
          rw [uy, ← zpow_natCast, ← zpow_add₀ (by norm_num)]
          congr 1; push_cast; ring
        rw [h7]; linarith
      linarith
    rw [abs_of_nonpos hx0] at hxabs
    have h1 : x / ulp32 x ≤ ((-(2 ^ 23) : ℤ) : ℝ) := by rw [div_le_iff₀ hux]; push_cast; linarith
    have h2 := round_mono' h1
    rw [round_intCast] at h2
    have h3 : (round (x / ulp32 x) : ℝ) ≤ ((-(2 ^ 23) : ℤ) : ℝ) := by exact_mod_cast h2
    push_cast at h3
    have h4 : near32 x ≤ -(ulp32 x * 2 ^ 23) := by unfold near32; nlinarith
    linarith [lo_ge y]

theorem rd32_fin_iff {x v : ℝ} : rd32 x = fin v ↔ v = near32 x ∧ -2 ^ 128 < near32 x ∧ near32 x < 2 ^ 128 := by
  have e : rd32 x = if 2 ^ 128 ≤ near32 x then pinf else if near32 x ≤ -2 ^ 128 then ninf else fin (near32 x) := rfl
  rw [e]
  split_ifs with h1 h2
  · simp only [false_iff]; rintro ⟨-, -, h⟩; linarith
  · simp only [false_iff]; rintro ⟨-, h, -⟩; linarith
  · push Not at h1 h2
    simp only [fin.injEq]
    exact ⟨fun h => ⟨h.symm, h2, h1⟩, fun h => h.1.symm⟩

/-- **C151.** Rounding to single precision is monotone: a number between two others is rounded between their rounded values. -/
theorem C151_mono {a x b A B : ℝ} (h1 : a ≤ x) (h2 : x ≤ b) (ha : rd32 a = fin A) (hb : rd32 b = fin B) : ∃ X, rd32 x = fin X ∧ A ≤ X ∧ X ≤ B := by
  obtain ⟨rfl, a1, -⟩ := rd32_fin_iff.1 ha
  obtain ⟨rfl, -, b2⟩ := rd32_fin_iff.1 hb
  have m1 := near32_mono h1
  have m2 := near32_mono h2
  exact ⟨near32 x, rd32_fin_iff.2 ⟨rfl, by linarith, by linarith⟩, m1, m2⟩

theorem log32_fin {x : ℝ} (h : 0 < x) : binary32.log (fin x) = rd32 (Real.log x) := by
  show (match F.log (fin x) with | fin x => rd32 x | v => v) = _
  rw [F.log_fin h]

/-- **C151.** The range of the spline is stored as the rounded logarithms of the limits.  Every `x` between the limits (a sample, or a point of the grid) then has its computed logarithm in the range, ends included. -/
theorem C151_inside {s : Spline} {xmin xmax : ℝ} (h0 : 0 < xmin) (hlo : rd32 (Real.log xmin) = fin s.lo) (hhi : rd32 (Real.log xmax) = fin s.hi) {x : ℝ} (h1 : xmin ≤ x) (h2 : x ≤ xmax) :
    ∃ y, binary32.log (fin x) = fin y ∧ ¬ s.outside y := by
  have hx : 0 < x := h0.trans_le h1
  obtain ⟨y, ey, l, u⟩ := C151_mono (Real.log_le_log h0 h1) (Real.log_le_log hx h2) hlo hhi
  refine ⟨y, by rw [log32_fin hx, ey], ?_⟩
  unfold Spline.outside
  push Not
  exact ⟨l, u⟩

/-- **C151.** With limits that are themselves single-precision numbers, every point of a grid computed in single precision between them is fine: what is rounded lies between the limits before and after rounding. -/
theorem C151_grid {s : Spline} {xmin xmax : ℝ} (h0 : 0 < xmin) (hmin : rd32 xmin = fin xmin) (hmax : rd32 xmax = fin xmax) (hlo : rd32 (Real.log xmin) = fin s.lo) (hhi : rd32 (Real.log xmax) = fin s.hi)
    {x : ℝ} (h1 : xmin ≤ x) (h2 : x ≤ xmax) : ∃ g y, rd32 x = fin g ∧ binary32.log (fin g) = fin y ∧ ¬ s.outside y := by
  obtain ⟨g, eg, l, u⟩ := C151_mono h1 h2 hmin hmax
  obtain ⟨y, ey, hy⟩ := C151_inside h0 hlo hhi l u
  exact ⟨g, y, eg, ey, hy⟩

/-! ### a limit that is not a number of single precision -/

/-- the limit 1.3 rounded to single precision, `5452595 / 2²²` -/
def low13 : ℝ := 5452595 / 2 ^ 22

/-- the logarithm of 1.3 rounded to single precision -/
def logLow13 : ℝ := 8803484 / 2 ^ 25

theorem near32_eq {x : ℝ} {e k : ℤ} (he : -126 ≤ e) (h1 : (2:ℝ) ^ e ≤ x) (h2 : x < 2 ^ (e + 1)) (h3 : ((k:ℝ) - 1 / 2) * 2 ^ (e - 23) ≤ x) (h4 : x < ((k:ℝ) + 1 / 2) * 2 ^ (e - 23)) :
    near32 x = k * 2 ^ (e - 23) := by
  have h0 : 0 < x := lt_of_lt_of_le (by positivity) h1
  have hl : Int.log 2 |x| = e := by
    rw [abs_of_pos h0]
    refine le_antisymm ?_ ?_
    · have : Int.log 2 x < e + 1 := (Int.lt_zpow_iff_log_lt one_lt_two h0).1 (by exact_mod_cast h2)
      omega
    · exact (Int.zpow_le_iff_le_log one_lt_two h0).1 (by exact_mod_cast h1)
  have hu : ulp32 x = 2 ^ (e - 23) := by unfold ulp32; rw [hl, max_eq_left he]
  have hp : (0:ℝ) < 2 ^ (e - 23) := by positivity
  unfold near32
  rw [hu]
  congr 2
  rw [round_eq, Int.floor_eq_iff]
  constructor
  · have := (le_div_iff₀ hp).2 h3; linarith
  · have := (div_lt_iff₀ hp).2 h4; linarith

theorem log_ratio_bounds {x : ℝ} (hx : |x| ≤ 0.31) : |(∑ i ∈ range 24, x ^ (i + 1) / (i + 1)) + Real.log (1 - x)| ≤ 2⁻¹ ^ 40 := by
  refine (Real.abs_log_sub_add_sum_range_le (by linarith [show (0.31:ℝ) < 1 by norm_num]) 24).trans ?_
  rw [div_le_iff₀ (by linarith [show (0.31:ℝ) < 1 by norm_num])]
  have h1 : |x| ^ (24 + 1) ≤ 0.31 ^ 25 := pow_le_pow_left₀ (abs_nonneg x) hx 25
  have h2 : (2⁻¹:ℝ) ^ 40 * (1 - 0.31) ≤ 2⁻¹ ^ 40 * (1 - |x|) := mul_le_mul_of_nonneg_left (by linarith) (by positivity)
  refine h1.trans (le_trans ?_ h2)
  norm_num

theorem log13 : (8803483.5:ℝ) / 2 ^ 25 ≤ Real.log 1.3 ∧ Real.log 1.3 < 8803484.5 / 2 ^ 25 := by
  have h := log_ratio_bounds (x := -0.3) (by norm_num)
  rw [show (1:ℝ) - -0.3 = 1.3 by norm_num, abs_le] at h
  simp only [sum_range_succ, sum_range_zero] at h
  norm_num at h
  constructor <;> norm_num <;> linarith [h.1, h.2]

theorem log13' : (8803482.5:ℝ) / 2 ^ 25 ≤ Real.log low13 ∧ Real.log low13 < 8803483.5 / 2 ^ 25 := by
  have h := log_ratio_bounds (x := 1 - low13) (by unfold low13; rw [abs_le]; constructor <;> norm_num)
  rw [show (1:ℝ) - (1 - low13) = low13 by ring, abs_le] at h
  unfold low13 at h ⊢
  simp only [sum_range_succ, sum_range_zero] at h
  norm_num at h
  constructor <;> norm_num <;> linarith [h.1, h.2]

/-- **C151**, failure for a limit that is not a number of single precision: with `xmin = 1.3` the range of the spline starts at the rounded logarithm of 1.3, the grid at 1.3 rounded, and the logarithm of that,
rounded, is below the start of the range. -/
theorem C151_limit_fails : rd32 1.3 = fin low13 ∧ rd32 (Real.log 1.3) = fin logLow13 ∧ ∃ y, binary32.log (fin low13) = fin y ∧ y < logLow13 := by
  have e1 : near32 1.3 = low13 := by
    rw [near32_eq (e := 0) (k := 10905190) (by norm_num) (by norm_num) (by norm_num) (by norm_num) (by norm_num)]
    unfold low13; norm_num
  have e2 : near32 (Real.log 1.3) = logLow13 := by
    obtain ⟨h1, h2⟩ := log13
    rw [near32_eq (e := -2) (k := 8803484) (by norm_num) (le_trans (by norm_num) h1) (h2.trans (by norm_num)) (le_trans (by norm_num) h1) (h2.trans_le (by norm_num))]
    unfold logLow13; norm_num
  have e3 : near32 (Real.log low13) = 8803483 / 2 ^ 25 := by
    obtain ⟨h1, h2⟩ := log13'
    rw [near32_eq (e := -2) (k := 8803483) (by norm_num) (le_trans (by norm_num) h1) (h2.trans (by norm_num)) (le_trans (by norm_num) h1) (h2.trans_le (by norm_num))]
    norm_num
  refine ⟨rd32_fin_iff.2 ⟨e1.symm, ?_, ?_⟩, rd32_fin_iff.2 ⟨e2.symm, ?_, ?_⟩, 8803483 / 2 ^ 25, ?_, ?_⟩
  · rw [e1]; unfold low13; norm_num
  · rw [e1]; unfold low13; norm_num
  · rw [e2]; unfold logLow13; norm_num
  · rw [e2]; unfold logLow13; norm_num
  · rw [log32_fin (by unfold low13; norm_num)]
    exact rd32_fin_iff.2 ⟨e3.symm, by rw [e3]; norm_num, by rw [e3]; norm_num⟩
  · unfold logLow13; norm_num

/-- exact arithmetic but for the logarithm of single precision -/
def logOnly32 : Arith := { Arith.exact with log := binary32.log }

theorem logOnly32_r (a : F) : logOnly32.r a = Arith.exact.r a := by cases a <;> rfl

theorem logOnly32_sum {n : ℕ} (a : Fin n → F) (t : RTree n) : logOnly32.sum a t = Arith.exact.sum a t := by
  induction t with
  | leaf i => rfl
  | node l r hl hr => rw [Arith.sum, Arith.sum, hl, hr, logOnly32_r]

theorem logOnly32_basis (t : ℕ → ℝ) (x : ℝ) (k : ℕ) : ∀ i, basisR logOnly32 t x k i = basisR Arith.exact t x k i := by
  have hrd : logOnly32.rd knotEps = Arith.exact.rd knotEps := rfl
  induction k using Nat.strong_induction_on with
  | _ k ih =>
    intro i
    match k with
    | 0 => rfl
    | 1 => rw [basisR, basisR]; simp only [logOnly32_r, hrd]
    | k + 2 => rw [basisR, basisR]; simp only [logOnly32_r, hrd, ih (k + 1) (by omega)]

theorem logOnly32_bases (s : Spline) (i : ℕ) (x : ℝ) : s.bBasesR logOnly32 i x = s.bBasesR Arith.exact i x := by
  unfold Spline.bBasesR Spline.bBaseR
  simp only [logOnly32_r, logOnly32_basis]

/-- **C151**, what the lost end costs: all coefficients zero, so that the density is uniform, and the first of `n + 1` grid points lost.  The normalisation misses half of the first step, and the density comes out
too large by that much at every point, here with no other rounding at all. -/
theorem C151_density_fails {s : Spline} (hk : 1 ≤ s.order) {n : ℕ} (hn : 0 < n) (o : RTree s.N) (ho : o.Covers) (og : RTree n) (hog : og.Covers) {grid : ℕ → ℝ}
    (h0 : ∃ y, binary32.log (fin (grid 0)) = fin y ∧ s.outside y) (hin : ∀ j, 1 ≤ j → j ≤ n → ∃ y, binary32.log (fin (grid j)) = fin y ∧ ¬ s.outside y)
    (hg : grid n - grid 0 - (grid 1 - grid 0) / 2 ≠ 0) {x : ℝ} (hx : ∃ y, binary32.log (fin x) = fin y ∧ ¬ s.outside y) :
    s.logXYEvalR logOnly32 o og grid (fun _ => fin 0) x = fin (1 / (grid n - grid 0 - (grid 1 - grid 0) / 2)) ∧ logSplineDensity s n grid (fun _ => 0) x = 1 / (grid n - grid 0) := by
  have tel : ∀ Y : ℕ → ℝ, (∀ j, 1 ≤ j → j ≤ n → Y j = 1) → trapz (n + 1) Y grid = grid n - grid 0 - (grid 1 - grid 0) / 2 * (1 - Y 0) := by
    intro Y hY
    unfold trapz
    rw [Nat.add_sub_cancel]
    obtain ⟨m, rfl⟩ : ∃ m, n = m + 1 := ⟨n - 1, by omega⟩
    rw [sum_range_succ']
    have : ∑ i ∈ range m, (grid (i + 1 + 1) - grid (i + 1)) * (Y (i + 1 + 1) + Y (i + 1)) = ∑ i ∈ range m, 2 * (grid (i + 1 + 1) - grid (i + 1)) :=
      sum_congr rfl fun i hi => by
        have := mem_range.1 hi
        rw [hY (i + 1 + 1) (by omega) (by omega), hY (i + 1) (by omega) (by omega)]; ring
    rw [this, ← mul_sum, sum_range_sub (fun i => grid (i + 1)), hY (0 + 1) (by omega) (by omega)]
    ring
  constructor
  · have key : ∀ {v : ℝ}, (∃ y, binary32.log (fin v) = fin y ∧ ¬ s.outside y) → s.logXYProjectR logOnly32 o (fun _ => fin 0) v = fin 1 := by
      rintro v ⟨y, ey, hy⟩
      have e : einsumR logOnly32 o (fun i => s.logXYBasesR logOnly32 i v) (fun _ => fin 0) = fin 0 := by
        have := einsumR_exact o ho (fun i => s.bBases i y) (fun _ => 0) (fun i => s.logXYBasesR logOnly32 i v) fun i _ => by
          have el : logOnly32.log (fin v) = fin y := ey
          unfold Spline.logXYBasesR
          simp only [el]
          unfold Spline.logYBasesR
          rw [if_neg hy]
          exact (logOnly32_bases s i y).trans (bBasesR_exact s hk i y)
        simp only [mul_zero, sum_const_zero] at this
        refine Eq.trans ?_ this
        unfold einsumR
        simp only [logOnly32_sum, logOnly32_r]
      unfold Spline.logXYProjectR
      rw [e]
      show F.exp (fin 0) = fin 1
      rw [exp_fin, Real.exp_zero]
    have key0 : s.logXYProjectR logOnly32 o (fun _ => fin 0) (grid 0) = fin 0 := by
      obtain ⟨y, ey, hy⟩ := h0
      have e : ∀ i, s.logXYBasesR logOnly32 i (grid 0) = ninf := fun i => by
        have el : logOnly32.log (fin (grid 0)) = fin y := ey
        unfold Spline.logXYBasesR Spline.logYBasesR
        simp only [el, if_pos hy]
      have hs : ∀ t : RTree s.N, logOnly32.sum (fun i => logOnly32.r (s.logXYBasesR logOnly32 i (grid 0) * fin 0)) t = nan := by
        intro t
        induction t with
        | leaf i => simp only [Arith.sum, e, ninf_mul_fin, neg_zero, infOfSign_zero]; rfl
        | node l r hl hr => simp only [Arith.sum, hl, hr]; rfl
      have e2 : einsumR logOnly32 o (fun i => s.logXYBasesR logOnly32 i (grid 0)) (fun _ => fin 0) = nan := hs o
      unfold Spline.logXYProjectR
      rw [e2]
      rfl
    have eT : trapzR logOnly32 og (fun j => s.logXYProjectR logOnly32 o (fun _ => fin 0) (grid j)) grid = fin (trapz (n + 1) (fun j => if j = 0 then 0 else 1) grid) := by
      have e : ∀ y : ℕ → F, trapzR logOnly32 og y grid = trapzR Arith.exact og y grid := fun y => by unfold trapzR; simp only [logOnly32_sum, logOnly32_r]
      rw [e]
      refine trapzR_exact og hog _ _ _ fun j hj => ?_
      by_cases hj0 : j = 0
      · subst hj0; rw [key0, if_pos rfl]
      · rw [key (hin j (by omega) hj), if_neg hj0]
    unfold Spline.logXYEvalR
    rw [eT, key hx, tel _ fun j h1 _ => if_neg (by omega), if_pos rfl, sub_zero, mul_one]
    simp only [logOnly32_r, exact_r]
    rw [one_def, div_fin hg, mul_fin, one_mul]
  · have e : ∀ v, s.logExpo (fun _ => 0) v = 0 := fun v => by unfold Spline.logExpo Spline.expo; simp
    unfold logSplineDensity
    simp only [e, Real.exp_zero]
    rw [tel (fun _ => 1) fun _ _ _ => rfl]
    simp

/-- mass limits 1.3 and 4, the spline of order 2 in `log x`, the grid 1.3, 2, 4 -/
def lowSpline : Spline := ⟨2, 3, logLow13, 2, ⟨5, fun i => i⟩⟩

theorem log32_fact {x : ℝ} (h1 : 2 ≤ x) (h2 : x ≤ 4) : ∃ y, binary32.log (fin x) = fin y ∧ ¬ lowSpline.outside y := by
  have l2 := Real.log_two_gt_d9
  have l2' := Real.log_two_lt_d9
  have a : Real.log 2 ≤ Real.log x := Real.log_le_log (by norm_num) h1
  have b : Real.log x ≤ 2 * Real.log 2 := by
    have := Real.log_le_log (by linarith) h2
    rwa [show (4:ℝ) = 2 ^ 2 by norm_num, Real.log_pow] at this
  obtain ⟨y, ey, hy⟩ := binary32_contract.log_norm x (le_trans (by unfold flLo; norm_num) h1) (h2.trans (by unfold flHi; norm_num))
  refine ⟨y, ey, ?_⟩
  have h3 : |y - Real.log x| ≤ 1 / 100 := hy.trans (by rw [abs_of_nonneg (by linarith)]; norm_num; linarith)
  rw [abs_le] at h3
  unfold Spline.outside lowSpline logLow13
  push Not
  constructor <;> norm_num <;> linarith [h3.1, h3.2]

/-- With the limit 1.3 and that grid the uniform density on 1.3 to 4, which is `1 / 2.7`, comes out as `1 / 2.35`. -/
example (o : RTree 3) (ho : o.Covers) (x : ℝ) (h1 : 2 ≤ x) (h2 : x ≤ 4) :
    ∃ p : ℝ, lowSpline.logXYEvalR logOnly32 o hatGridOrder (fun j => if j = 0 then low13 else 2 * j) (fun _ => fin 0) x = fin p ∧
      |p - 1 / 2.35| ≤ 1 / 10 ^ 6 ∧ |logSplineDensity lowSpline 2 (fun j => if j = 0 then low13 else 2 * j) (fun _ => 0) x - 1 / 2.7| ≤ 1 / 10 ^ 6 := by
  obtain ⟨-, -, y, ey, hy⟩ := C151_limit_fails
  obtain ⟨a, b⟩ := C151_density_fails (s := lowSpline) (by simp [lowSpline]) (n := 2) (by norm_num) o ho hatGridOrder hatGridOrder_covers (grid := fun j => if j = 0 then low13 else 2 * j)
    ⟨y, by simpa using ey, .inl hy⟩ (fun j hj1 hj2 => by
      have e : (if j = 0 then low13 else 2 * (j:ℝ)) = 2 * j := if_neg (by omega)
      have c1 : (1:ℝ) ≤ j := by exact_mod_cast hj1
      have c2 : (j:ℝ) ≤ 2 := by exact_mod_cast hj2
      simp only [e]
      exact log32_fact (by linarith) (by linarith)) (by unfold low13; norm_num) (log32_fact h1 h2)
  refine ⟨_, a, ?_, ?_⟩
  · unfold low13; rw [abs_le]; constructor <;> norm_num
  · rw [b]; unfold low13; rw [abs_le]; constructor <;> norm_num

/-- limits 4 and 16: every sample between them has its computed logarithm in the range stored in single precision -/
example (s : Spline) (hlo : rd32 (Real.log 4) = fin s.lo) (hhi : rd32 (Real.log 16) = fin s.hi) (x : ℝ) (h1 : 4 ≤ x) (h2 : x ≤ 16) : ∃ g y, rd32 x = fin g ∧ binary32.log (fin g) = fin y ∧ ¬ s.outside y := by
  have e : ∀ k : ℤ, -126 ≤ k → k ≤ 100 → rd32 (2 ^ k) = fin (2 ^ k) := by
    intro k h1 h2
    have hn := near32_eq (x := 2 ^ k) (e := k) (k := 2 ^ 23) h1 le_rfl (zpow_lt_zpow_right₀ one_lt_two (by omega))
      (by push_cast; have e : (2:ℝ) ^ k = 2 ^ 23 * 2 ^ (k - 23) := by rw [← zpow_natCast, ← zpow_add₀ (by norm_num)]; congr 1; push_cast; ring
          have : (0:ℝ) < 2 ^ (k - 23) := by positivity
          rw [e]; nlinarith)
      (by push_cast; have e : (2:ℝ) ^ k = 2 ^ 23 * 2 ^ (k - 23) := by rw [← zpow_natCast, ← zpow_add₀ (by norm_num)]; congr 1; push_cast; ring
          have : (0:ℝ) < 2 ^ (k - 23) := by positivity
          rw [e]; nlinarith)
    have hv : near32 ((2:ℝ) ^ k) = 2 ^ k := by
      rw [hn, Int.cast_pow, Int.cast_ofNat, ← zpow_natCast, ← zpow_add₀ (by norm_num)]; congr 1; push_cast; ring
    refine rd32_fin_iff.2 ⟨hv.symm, ?_, ?_⟩
    · rw [hv]; have : (0:ℝ) < 2 ^ k := by positivity
      linarith [show (0:ℝ) < 2 ^ 128 by positivity]
    · rw [hv, ← zpow_natCast]; exact zpow_lt_zpow_right₀ one_lt_two (by push_cast; omega)
  have e4 := e 2 (by norm_num) (by norm_num)
  have e16 := e 4 (by norm_num) (by norm_num)
  norm_num at e4 e16
  exact C151_grid (by norm_num) e4 e16 hlo hhi h1 h2

end GW
end
