import Verif.Model.IntegerPoints
import Verif.Props.SplineProject

/-! # Property C121: a spline has the same value at an integer whether it is stored as an integer or as a float -/

open Finset
noncomputable section
open Classical
namespace GW

/-- equal knot spacing: the integer-typed recursion gives a fixed multiple of the basis function -/
theorem basisInt_scaled {t : ℕ → ℝ} {h : ℝ} (hh : 0 < h) (ht : ∀ i, t (i + 1) - t i = h) (x : ℤ) : ∀ k i,
    basisInt t x k i = (h * (⌊1 / h⌋ : ℤ)) * basis t x k i
  | 0, i => by simp [basisInt, basis]
  | 1, i => by
    unfold basisInt basis
    rw [ht i]
    split_ifs
    · simp
    · field_simp
    · simp
  | k + 2, i => by
    unfold basisInt basis
    rw [basisInt_scaled hh ht x (k + 1) i, basisInt_scaled hh ht x (k + 1) (i + 1)]
    split_ifs
    · simp
    · ring

/-- knots more than 1 apart: the integer-typed recursion gives zero -/
theorem basisInt_wide {t : ℕ → ℝ} {n : ℕ} (ht : ∀ i, i + 1 < n → 1 < t (i + 1) - t i) (x : ℤ) : ∀ k i, i + k < n → basisInt t x k i = 0
  | 0, i, _ => rfl
  | 1, i, hi => by
    have h := ht i hi
    have hf : ⌊1 / (t (i + 1) - t i)⌋ = 0 := by
      rw [Int.floor_eq_zero_iff]
      exact ⟨by positivity, by rw [div_lt_one (by linarith)]; exact h⟩
    unfold basisInt
    rw [hf]
    simp
  | k + 2, i, hi => by
    unfold basisInt
    rw [basisInt_wide ht x (k + 1) i (by omega), basisInt_wide ht x (k + 1) (i + 1) (by omega)]
    simp

section default
variable {nDf k : ℕ} {a b : ℝ} {s : Spline}

theorem spacing_pos (hn : k ≤ nDf) (hab : a < b) : 0 < (b - a) / ((nDf : ℝ) - k + 1) := div_pos (by linarith) (default_den_pos hn)

theorem bBasesInt_scaled (hk : 1 ≤ k) (hn : k ≤ nDf) (hab : a < b) (hs : Spline.init nDf none none a b k = .ok s) (i : ℕ) (x : ℤ) :
    s.bBasesInt i x = ((b - a) / ((nDf : ℝ) - k + 1) * (⌊1 / ((b - a) / ((nDf : ℝ) - k + 1))⌋ : ℤ)) * s.bBases i x := by
  unfold Spline.bBasesInt Spline.bBases Spline.bBase
  rw [basisInt_scaled (spacing_pos hn hab) (init_default_gap hk hn hs)]
  split_ifs
  · simp
  · ring

theorem mBasesInt_scaled (hk : 1 ≤ k) (hn : k ≤ nDf) (hab : a < b) (hs : Spline.init nDf none none a b k = .ok s) (i : ℕ) (x : ℤ) :
    s.mBasesInt i x = ((b - a) / ((nDf : ℝ) - k + 1) * (⌊1 / ((b - a) / ((nDf : ℝ) - k + 1))⌋ : ℤ)) * s.mBases i x := by
  unfold Spline.mBasesInt Spline.mBases Spline.mBase
  rw [basisInt_scaled (spacing_pos hn hab) (init_default_gap hk hn hs)]
  split_ifs
  · simp
  · ring

theorem einsum_scale_left (N : ℕ) (r : ℝ) (B c : ℕ → ℝ) : einsum N (fun i => r * B i) c = r * einsum N B c := by
  simp only [einsum, mul_sum, mul_assoc]

/-- **C121** (what happens).  With the default knots, spacing `h`, the value at an integer-typed point is `h ⌊1/h⌋` times the value at the same
floating-point number, for the M-spline and the B-spline, normalised or not. -/
theorem C121_scaled (hk : 1 ≤ k) (hn : k ≤ nDf) (hab : a < b) (hs : Spline.init nDf none none a b k = .ok s) (h : ℝ)
    (hh : h = (b - a) / ((nDf : ℝ) - k + 1)) (nrm : Bool) (c : ℕ → ℝ) (x : ℤ) :
    s.bEvalInt nrm c x = h * ⌊1 / h⌋ * s.bEval nrm c x ∧ s.mEvalInt nrm c x = h * ⌊1 / h⌋ * s.mEval nrm c x := by
  subst hh
  constructor
  · unfold Spline.bEvalInt Spline.bEval bProject
    simp only [bBasesInt_scaled hk hn hab hs, einsum_scale_left]
    ring
  · unfold Spline.mEvalInt Spline.mEval mProject
    simp only [mBasesInt_scaled hk hn hab hs, einsum_scale_left]
    ring

/-- **C121, partial** (missing: spacings whose inverse is not an integer, see `C121_fails`).  If the number of intervals is a multiple of the length of
the domain, the type of the points does not matter. -/
theorem C121_partial (hk : 1 ≤ k) (hn : k ≤ nDf) (hab : a < b) (hs : Spline.init nDf none none a b k = .ok s) (m : ℕ)
    (hm : (nDf : ℝ) - k + 1 = m * (b - a)) (nrm : Bool) (c : ℕ → ℝ) (x : ℤ) :
    s.bEvalInt nrm c x = s.bEval nrm c x ∧ s.mEvalInt nrm c x = s.mEval nrm c x := by
  have hden := default_den_pos hn
  have hm0 : (m : ℝ) ≠ 0 := by rintro h; rw [h, zero_mul] at hm; linarith
  have hb : b - a ≠ 0 := by linarith
  have h1 : (b - a) / ((nDf : ℝ) - k + 1) = 1 / m := by rw [hm]; field_simp
  have h2 : (1 / (m : ℝ)) * (⌊1 / (1 / (m : ℝ))⌋ : ℤ) = 1 := by
    rw [one_div_one_div, Int.floor_natCast]
    push_cast
    field_simp
  obtain ⟨e1, e2⟩ := C121_scaled hk hn hab hs _ h1.symm nrm c x
  rw [e1, e2, h2, one_mul, one_mul]
  exact ⟨rfl, rfl⟩

/-- **C121 fails** for every other default spline: unless the inverse of the knot spacing is an integer, the two values differ at every point where
the spline does not vanish. -/
theorem C121_fails (hk : 1 ≤ k) (hn : k ≤ nDf) (hab : a < b) (hs : Spline.init nDf none none a b k = .ok s)
    (hm : ∀ m : ℤ, (nDf : ℝ) - k + 1 ≠ m * (b - a)) (nrm : Bool) (c : ℕ → ℝ) (x : ℤ) :
    (s.bEval nrm c x ≠ 0 → |s.bEvalInt nrm c x| < |s.bEval nrm c x|) ∧ (s.mEval nrm c x ≠ 0 → |s.mEvalInt nrm c x| < |s.mEval nrm c x|) := by
  have hpos := spacing_pos hn hab
  have hden := default_den_pos hn
  set h := (b - a) / ((nDf : ℝ) - k + 1) with hh
  obtain ⟨e1, e2⟩ := C121_scaled hk hn hab hs h hh nrm c x
  have hf : ((⌊1 / h⌋ : ℤ) : ℝ) < 1 / h := by
    refine lt_of_le_of_ne (Int.floor_le _) fun e => hm ⌊1 / h⌋ ?_
    rw [e, hh]
    have : b - a ≠ 0 := by linarith
    field_simp
  have h0 : 0 ≤ ((⌊1 / h⌋ : ℤ) : ℝ) := by exact_mod_cast Int.floor_nonneg.2 (by positivity)
  have hr : |h * (⌊1 / h⌋ : ℤ)| < 1 := by
    rw [abs_of_nonneg (by positivity)]
    calc h * ((⌊1 / h⌋ : ℤ) : ℝ) < h * (1 / h) := by gcongr
      _ = 1 := by field_simp
  rw [e1, e2, abs_mul, abs_mul (h * _)]
  constructor <;> intro hne <;> exact mul_lt_of_lt_one_left (abs_pos.2 hne) hr

end default

/-- **C121 fails** most visibly for knots more than 1 apart, default or given (for instance a spline over masses in solar units): at integer-typed
points all basis functions vanish, and with them the spline, whatever the coefficients. -/
theorem C121_wide_fails (s : Spline) (hlen : s.knots.len = s.N + s.order) (hw : ∀ i, i + 1 < s.knots.len → 1 < s.knots.get (i + 1) - s.knots.get i)
    (nrm : Bool) (c : ℕ → ℝ) (x : ℤ) :
    (∀ i < s.N, s.bBasesInt i x = 0 ∧ s.mBasesInt i x = 0) ∧ s.bEvalInt nrm c x = 0 ∧ s.mEvalInt nrm c x = 0 := by
  have h0 : ∀ i < s.N, s.bBasesInt i x = 0 ∧ s.mBasesInt i x = 0 := by
    intro i hi
    unfold Spline.bBasesInt Spline.mBasesInt
    rw [basisInt_wide hw x s.order i (by omega)]
    simp
  refine ⟨h0, ?_, ?_⟩
  · unfold Spline.bEvalInt bProject einsum
    rw [sum_eq_zero fun i hi => by simp only [(h0 i (mem_range.1 hi)).1, zero_mul], zero_mul]
  · unfold Spline.mEvalInt mProject
    simp only [einsum]
    rw [sum_eq_zero fun i hi => by simp only [(h0 i (mem_range.1 hi)).2, zero_mul], zero_mul]

/-- **C121 fails** for the spline in log y with knots more than 1 apart: the unnormalised density is 1 at every integer-typed point of the domain,
whatever the coefficients. -/
theorem C121_logy_fails (s : Spline) (hlen : s.knots.len = s.N + s.order)
    (hw : ∀ i, i + 1 < s.knots.len → 1 < s.knots.get (i + 1) - s.knots.get i) (c : ℕ → ℝ) (x : ℤ) (hx : s.lo ≤ x ∧ (x : ℝ) ≤ s.hi) :
    s.logYEvalInt false (fun i => F.fin (c i)) x = F.fin 1 := by
  obtain ⟨h0, -, -⟩ := C121_wide_fails s hlen hw false c x
  have ho : ¬ s.outside x := by unfold Spline.outside; rintro (h | h) <;> linarith [hx.1, hx.2]
  have he : einsum s.N (fun i => s.bBasesInt i x) c = 0 := by
    unfold einsum
    exact sum_eq_zero fun i hi => by simp only [(h0 i (mem_range.1 hi)).1, zero_mul]
  unfold Spline.logYEvalInt Spline.logYBasesInt
  simp only [if_neg ho, logYNorm, Bool.false_eq_true, if_false]
  rw [logYProject_in _ _ _ (by rw [he]; have := F.BIG_pos; linarith), he]
  simp

/-- **C121** for the spline in log y, outside the domain: the value is that of the same floating-point number, and every basis function is -inf. -/
theorem C121_logy_outside (s : Spline) (nrm : Bool) (c : ℕ → F) (x : ℤ) (hx : (x : ℝ) < s.lo ∨ s.hi < x) :
    s.logYEvalInt nrm c x = s.logYEval nrm c x ∧ ∀ i, s.logYBasesInt i x = F.ninf := by
  have ho : s.outside x := by unfold Spline.outside; exact hx
  unfold Spline.logYEvalInt Spline.logYEval Spline.logYBasesInt Spline.logYBases
  simp only [if_pos ho, implies_true, and_self]

/-- **C121** for the spline in log y where the spacing of the knots is 1/m: the values agree everywhere. -/
theorem C121_logy_partial (hk : 1 ≤ k) (hn : k ≤ nDf) (hab : a < b) (hs : Spline.init nDf none none a b k = .ok s) (m : ℕ)
    (hm : (nDf : ℝ) - k + 1 = m * (b - a)) (nrm : Bool) (c : ℕ → F) (x : ℤ) :
    s.logYEvalInt nrm c x = s.logYEval nrm c x := by
  have hden := default_den_pos hn
  have hm0 : (m : ℝ) ≠ 0 := by rintro h; rw [h, zero_mul] at hm; linarith
  have hb : b - a ≠ 0 := by linarith
  have h1 : (b - a) / ((nDf : ℝ) - k + 1) = 1 / m := by rw [hm]; field_simp
  have e : ∀ i, s.bBasesInt i x = s.bBases i x := by
    intro i
    rw [bBasesInt_scaled hk hn hab hs, h1]
    have : (⌊1 / (1 / (m : ℝ))⌋ : ℤ) = m := by rw [one_div_one_div]; simp
    rw [this]
    simp [hm0]
  unfold Spline.logYEvalInt Spline.logYEval Spline.logYBasesInt Spline.logYBases
  simp only [e]

/-! ### The hypotheses are met -/

example : ∃ s : Spline, Spline.init 23 none none 0 10 4 = .ok s ∧ (∀ c (x : ℤ), s.logYEvalInt true c x = s.logYEval true c x) ∧
    ∀ i, s.logYBasesInt i 11 = F.ninf := by
  obtain ⟨s, hs, -, -, hlo, hhi, -⟩ := init_default (nDf := 23) (k := 4) (lo := 0) (hi := 10) (by norm_num) (by norm_num)
  exact ⟨s, hs, fun c x => C121_logy_partial (by norm_num) (by norm_num) (by norm_num) hs 2 (by norm_num) true c x,
    (C121_logy_outside s true (fun _ => 0) 11 (Or.inr (by rw [hhi]; norm_num))).2⟩

/-- thirty cubic splines over 2 to 100 solar masses: at mass 30, stored as an integer, the spline is 0, as a float it is not -/
example : ∃ s : Spline, Spline.init 30 none none 2 100 4 = .ok s ∧ s.bEvalInt false (fun _ => 1) 30 = 0 ∧ s.bEval false (fun _ => 1) 30 = 1 := by
  obtain ⟨s, hs, ho, hN, hlo, hhi, hl, -⟩ := init_default (nDf := 30) (k := 4) (lo := 2) (hi := 100) (by norm_num) (by norm_num)
  refine ⟨s, hs, ?_, ?_⟩
  · exact (C121_wide_fails s (by rw [hl, hN, ho]) (fun i _ => by rw [init_default_gap (by norm_num) (by norm_num) hs]; norm_num) false _ 30).2.1
  · have := C04_constant 30 4 2 100 (by norm_num) (by norm_num) (by norm_num) s hs 1 30 (by norm_num)
    simpa using this

/-- spacing 1/2: no difference -/
example : ∃ s : Spline, Spline.init 23 none none 0 10 4 = .ok s ∧ ∀ c (x : ℤ), s.bEvalInt false c x = s.bEval false c x := by
  obtain ⟨s, hs, -⟩ := init_default (nDf := 23) (k := 4) (lo := 0) (hi := 10) (by norm_num) (by norm_num)
  exact ⟨s, hs, fun c x => (C121_partial (by norm_num) (by norm_num) (by norm_num) hs 2 (by norm_num) false c x).1⟩

/-- spacing 10/27: the values are smaller -/
example : ∃ s : Spline, Spline.init 30 none none 0 10 4 = .ok s ∧ |s.bEvalInt false (fun _ => 1) 5| < |s.bEval false (fun _ => 1) 5| := by
  obtain ⟨s, hs, -⟩ := init_default (nDf := 30) (k := 4) (lo := 0) (hi := 10) (by norm_num) (by norm_num)
  refine ⟨s, hs, ?_⟩
  have hne := C04_constant 30 4 0 10 (by norm_num) (by norm_num) (by norm_num) s hs 1 5 (by norm_num)
  refine (C121_fails (by norm_num) (by norm_num) (by norm_num) hs (fun m hm => ?_) false (fun _ => 1) 5).1 ?_
  · have : (27 : ℤ) = m * 10 := by exact_mod_cast (by norm_num at hm; linarith : (27 : ℝ) = m * 10)
    omega
  · push_cast
    rw [hne]
    norm_num

end GW
end
