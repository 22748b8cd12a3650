import Verif.Model.FindMap
import Mathlib.Analysis.SpecialFunctions.Log.Basic
import Mathlib.Analysis.Complex.ExponentialBounds
import Mathlib.Tactic.IntervalCases
import Mathlib.Tactic.NormNum
import Mathlib.Tactic.Linarith
import Mathlib.Tactic.Positivity
import Mathlib.Tactic.FieldSimp

/-! # Property C135: what `find_map` can reach -/

noncomputable section
namespace GW

/-- Cauchy and Schwarz for the two running means, one step -/
theorem adam_cs {c m v g : ℝ} (hc : 0 ≤ c) (hv : 0 ≤ v) (h : m ^ 2 ≤ c * v) :
    ((1 - 9 / 10) * g + 9 / 10 * m) ^ 2 ≤ (10 + 30 / 37 * c) * ((1 - 999 / 1000) * g ^ 2 + 999 / 1000 * v) := by
  have h1 : (9 / 50 * (g * m)) ≤ 999 / 100 * v + 3 / 3700 * (c * g ^ 2) := by
    refine le_trans (le_abs_self _) (abs_le_of_sq_le_sq ?_ (by positivity))
    have h2 : g ^ 2 * m ^ 2 ≤ g ^ 2 * (c * v) := mul_le_mul_of_nonneg_left h (sq_nonneg g)
    nlinarith [sq_nonneg (999 / 100 * v - 3 / 3700 * (c * g ^ 2))]
  nlinarith

/-- the constant in the bound of the running mean by the running mean of the squares after `t` steps -/
def adamC (t : ℕ) : ℝ := 370 / 7 * (1 - (30 / 37) ^ t)

theorem adamC_nonneg (t : ℕ) : 0 ≤ adamC t := by
  unfold adamC
  have : ((30:ℝ) / 37) ^ t ≤ 1 := pow_le_one₀ (by norm_num) (by norm_num)
  linarith

theorem adam_inv {n : ℕ} (lr : ℝ) (grad : (Fin n → ℝ) → Fin n → ℝ) (x0 : Fin n → ℝ) (t : ℕ) (j : Fin n) :
    0 ≤ (sviRun lr grad x0 t j).v ∧ (sviRun lr grad x0 t j).m ^ 2 ≤ adamC t * (sviRun lr grad x0 t j).v := by
  induction t with
  | zero => simp [sviRun, adamInit, adamC]
  | succ t ih =>
    have h := adam_cs (g := grad (fun k => (sviRun lr grad x0 t k).x) j) (adamC_nonneg t) ih.1 ih.2
    have hc : 10 + 30 / 37 * adamC t = adamC (t + 1) := by unfold adamC; rw [pow_succ]; ring
    rw [hc] at h
    refine ⟨?_, h⟩
    have := ih.1
    show 0 ≤ (1 - 999 / 1000) * (_:ℝ) ^ 2 + 999 / 1000 * (sviRun lr grad x0 t j).v
    positivity

/-- one step moves a coordinate by at most `B lr`, if the corrections for the start allow it -/
theorem adam_step_le {n : ℕ} {lr : ℝ} (hlr : 0 ≤ lr) (grad : (Fin n → ℝ) → Fin n → ℝ) (x0 : Fin n → ℝ) (t : ℕ) (j : Fin n) {B : ℝ} (hB : 0 ≤ B)
    (h : adamC (t + 1) * (1 - (999 / 1000) ^ (t + 1)) ≤ B ^ 2 * (1 - (9 / 10) ^ (t + 1)) ^ 2) :
    |(sviRun lr grad x0 (t + 1) j).x - (sviRun lr grad x0 t j).x| ≤ B * lr := by
  obtain ⟨hv, hm⟩ := adam_inv lr grad x0 (t + 1) j
  have hx : (sviRun lr grad x0 (t + 1) j).x = (sviRun lr grad x0 t j).x -
      lr * ((sviRun lr grad x0 (t + 1) j).m / (1 - (9 / 10) ^ (t + 1))) / (Real.sqrt ((sviRun lr grad x0 (t + 1) j).v / (1 - (999 / 1000) ^ (t + 1))) + 1 / 10 ^ 8) := rfl
  rw [hx]
  generalize (sviRun lr grad x0 (t + 1) j).m = m at *
  generalize (sviRun lr grad x0 (t + 1) j).v = v at *
  have h1 : ((9:ℝ) / 10) ^ (t + 1) < 1 := pow_lt_one₀ (by norm_num) (by norm_num) (by omega)
  have h2 : ((999:ℝ) / 1000) ^ (t + 1) < 1 := pow_lt_one₀ (by norm_num) (by norm_num) (by omega)
  set p := 1 - ((9:ℝ) / 10) ^ (t + 1) with hp
  set q := 1 - ((999:ℝ) / 1000) ^ (t + 1) with hq
  have p0 : 0 < p := by rw [hp]; linarith
  have q0 : 0 < q := by rw [hq]; linarith
  rw [sub_sub_cancel_left, abs_neg, abs_div, abs_mul, abs_of_nonneg hlr]
  have hs := Real.sqrt_nonneg (v / q)
  rw [abs_of_nonneg (show 0 ≤ Real.sqrt (v / q) + 1 / 10 ^ 8 by positivity), div_le_iff₀ (by positivity)]
  have hmv : |m / p| ≤ B * Real.sqrt (v / q) := by
    refine abs_le_of_sq_le_sq ?_ (mul_nonneg hB hs)
    rw [mul_pow, Real.sq_sqrt (by positivity), div_pow, div_le_iff₀ (by positivity)]
    refine hm.trans ?_
    have h3 : adamC (t + 1) ≤ B ^ 2 * p ^ 2 / q := by rw [le_div_iff₀ q0]; exact h
    calc adamC (t + 1) * v ≤ B ^ 2 * p ^ 2 / q * v := mul_le_mul_of_nonneg_right h3 hv
      _ = B ^ 2 * (v / q) * p ^ 2 := by ring
  have : lr * |m / p| ≤ lr * (B * Real.sqrt (v / q)) := mul_le_mul_of_nonneg_left hmv hlr
  have h4 : 0 ≤ B * lr * (1 / 10 ^ 8) := by positivity
  linarith

/-- the corrections for the start never allow more than a factor 7.28 -/
theorem adam_factor (t : ℕ) : adamC (t + 1) * (1 - (999 / 1000) ^ (t + 1)) ≤ (7.28:ℝ) ^ 2 * (1 - (9 / 10) ^ (t + 1)) ^ 2 := by
  have hc : adamC (t + 1) ≤ 7.28 ^ 2 := by
    unfold adamC
    have : (0:ℝ) < (30 / 37) ^ (t + 1) := by positivity
    have h728 : (7.28:ℝ) ^ 2 = 33124 / 625 := by norm_num
    rw [h728]; linarith
  have h2 : ((999:ℝ) / 1000) ^ (t + 1) ≤ 1 := pow_le_one₀ (by norm_num) (by norm_num)
  have key : 1 - ((999:ℝ) / 1000) ^ (t + 1) ≤ (1 - (9 / 10) ^ (t + 1)) ^ 2 := by
    by_cases ht : t < 7
    · interval_cases t <;> norm_num
    · have h3 : 2 * ((9:ℝ) / 10) ^ (t + 1) ≤ (999 / 1000) ^ (t + 1) := by
        have h4 : (2:ℝ) ≤ (111 / 100) ^ (t + 1) := by
          refine le_trans ?_ (pow_le_pow_right₀ (by norm_num) (show 8 ≤ t + 1 by omega))
          norm_num
        have h5 : ((999:ℝ) / 1000) ^ (t + 1) = (111 / 100) ^ (t + 1) * (9 / 10) ^ (t + 1) := by rw [← mul_pow]; norm_num
        rw [h5]
        exact mul_le_mul_of_nonneg_right h4 (by positivity)
      nlinarith [sq_nonneg (((9:ℝ) / 10) ^ (t + 1))]
  exact mul_le_mul hc key (by linarith) (by positivity)

/-- in the first hundred steps a factor 2.31 -/
theorem adam_factor_100 {t : ℕ} (ht : t < 100) : adamC (t + 1) * (1 - (999 / 1000) ^ (t + 1)) ≤ (2.31:ℝ) ^ 2 * (1 - (9 / 10) ^ (t + 1)) ^ 2 := by
  have h1 : ((9:ℝ) / 10) ^ (t + 1) < 1 := pow_lt_one₀ (by norm_num) (by norm_num) (by omega)
  have h2 : 1 - ((999:ℝ) / 1000) ^ (t + 1) ≤ (t + 1) / 1000 := by
    have := one_add_mul_le_pow (show (-2:ℝ) ≤ -(1 / 1000) by norm_num) (t + 1)
    norm_num at this ⊢
    linarith
  have h20 : ((999:ℝ) / 1000) ^ (t + 1) ≤ 1 := pow_le_one₀ (by norm_num) (by norm_num)
  have h3 : adamC (t + 1) ≤ 370 / 7 * ((1 - (9 / 10) ^ (t + 1)) * (1 + (9 / 10) ^ (t + 1))) := by
    unfold adamC
    have h4 : ((9:ℝ) / 10) ^ (t + 1) * (9 / 10) ^ (t + 1) ≤ (30 / 37) ^ (t + 1) := by
      rw [← mul_pow]
      exact pow_le_pow_left₀ (by norm_num) (by norm_num) _
    linarith
  have h5 : ((t:ℝ) + 1) * (1 + (9 / 10) ^ (t + 1)) ≤ 100.9 * (1 - (9 / 10) ^ (t + 1)) := by
    interval_cases t <;> norm_num
  set a := ((9:ℝ) / 10) ^ (t + 1) with ha
  have ha0 : 0 < a := by positivity
  calc adamC (t + 1) * (1 - (999 / 1000) ^ (t + 1)) ≤ 370 / 7 * ((1 - a) * (1 + a)) * ((t + 1) / 1000) :=
        mul_le_mul h3 h2 (by linarith) (mul_nonneg (by norm_num) (mul_nonneg (by linarith) (by linarith)))
    _ = 370 / 7000 * (1 - a) * ((t + 1) * (1 + a)) := by ring
    _ ≤ 370 / 7000 * (1 - a) * (100.9 * (1 - a)) := mul_le_mul_of_nonneg_left h5 (mul_nonneg (by norm_num) (by linarith))
    _ ≤ 2.31 ^ 2 * (1 - a) ^ 2 := by nlinarith [sq_nonneg (1 - a)]

theorem reach_of {n : ℕ} {lr : ℝ} (grad : (Fin n → ℝ) → Fin n → ℝ) (x0 : Fin n → ℝ) (j : Fin n) {B : ℝ} (T : ℕ)
    (h : ∀ t < T, |(sviRun lr grad x0 (t + 1) j).x - (sviRun lr grad x0 t j).x| ≤ B * lr) : |(sviRun lr grad x0 T j).x - x0 j| ≤ B * lr * T := by
  induction T with
  | zero => simp [sviRun, adamInit]
  | succ T ih =>
    have h1 := ih fun t ht => h t (by omega)
    have h2 := h T (by omega)
    have := abs_sub_le (sviRun lr grad x0 (T + 1) j).x (sviRun lr grad x0 T j).x (x0 j)
    push_cast
    linarith

/-- **C135** (how far `find_map` can go).  Whatever the model, the unconstrained value of a latent parameter after `Niter` steps is within `7.28 lr Niter` of its starting value. -/
theorem C135_reach {n : ℕ} {lr : ℝ} (hlr : 0 ≤ lr) (grad : (Fin n → ℝ) → Fin n → ℝ) (x0 : Fin n → ℝ) (Niter : ℕ) (j : Fin n) :
    |(sviRun lr grad x0 Niter j).x - x0 j| ≤ 7.28 * lr * Niter :=
  reach_of grad x0 j Niter fun t _ => adam_step_le hlr grad x0 t j (by norm_num) (adam_factor t)

/-- **C135** (up to the default number of steps).  For `Niter ≤ 100` it is within `2.31 lr Niter`; with the defaults, within 2.31. -/
theorem C135_reach_default {n : ℕ} {lr : ℝ} (hlr : 0 ≤ lr) (grad : (Fin n → ℝ) → Fin n → ℝ) (x0 : Fin n → ℝ) {Niter : ℕ} (hN : Niter ≤ 100) (j : Fin n) :
    |(sviRun lr grad x0 Niter j).x - x0 j| ≤ 2.31 * lr * Niter :=
  reach_of grad x0 j Niter fun t ht => adam_step_le hlr grad x0 t j (by norm_num) (adam_factor_100 (by omega))

/-- **C135** (the names).  The result has one entry per latent parameter, called `<name>_auto_loc`, and its value is in the image of the map to the support. -/
theorem C135_keys {n : ℕ} (sites : Fin n → Latent) (grad : (Fin n → ℝ) → Fin n → ℝ) (x0 : Fin n → ℝ) (Niter : ℕ) (lr : ℝ) :
    (findMap sites grad x0 Niter lr).map Prod.fst = List.ofFn (fun j => (sites j).name ++ "_auto_loc") ∧
    ∀ j, ∃ u, ((sites j).name ++ "_auto_loc", (sites j).constrain u) ∈ findMap sites grad x0 Niter lr := by
  refine ⟨by simp [findMap, List.map_ofFn, Function.comp_def], fun j => ⟨(sviRun lr grad x0 Niter j).x, ?_⟩⟩
  unfold findMap
  exact List.mem_ofFn.2 ⟨j, rfl⟩

/-- **C135** (a start at a stationary point).  If the gradient vanishes at the starting point, the starting point is returned.  Partial: nothing is said about starts elsewhere, see the
counterexamples. -/
theorem C135_stationary_partial {n : ℕ} (sites : Fin n → Latent) (grad : (Fin n → ℝ) → Fin n → ℝ) (x0 : Fin n → ℝ) (h : ∀ j, grad x0 j = 0) (Niter : ℕ) (lr : ℝ) :
    findMap sites grad x0 Niter lr = List.ofFn fun j => ((sites j).name ++ "_auto_loc", (sites j).constrain (x0 j)) := by
  have key : ∀ t, sviRun lr grad x0 t = fun j => ⟨x0 j, 0, 0⟩ := by
    intro t
    induction t with
    | zero => rfl
    | succ t ih =>
      funext j
      simp only [sviRun, ih, adamStep]
      rw [show grad (fun k => x0 k) j = 0 from h j]
      simp
  simp [findMap, key]

/-- **C135** (a steady slope).  If the gradient of a coordinate is the same number `g` at every point, the coordinate moves by `lr |g| / (|g| + 1e-8)` per step, downhill: at the defaults by less
than one in total, however steep the slope. -/
theorem C135_steady_slope {n : ℕ} (lr : ℝ) (grad : (Fin n → ℝ) → Fin n → ℝ) (x0 : Fin n → ℝ) (j : Fin n) (g : ℝ) (h : ∀ x, grad x j = g) (Niter : ℕ) :
    (sviRun lr grad x0 Niter j).x = x0 j - Niter * (lr * g / (|g| + 1 / 10 ^ 8)) := by
  have key : ∀ t, (sviRun lr grad x0 t j).m = (1 - (9 / 10) ^ t) * g ∧ (sviRun lr grad x0 t j).v = (1 - (999 / 1000) ^ t) * g ^ 2 := by
    intro t
    induction t with
    | zero => simp [sviRun, adamInit]
    | succ t ih =>
      simp only [sviRun, adamStep, h, ih.1, ih.2]
      constructor <;> rw [pow_succ] <;> ring
  induction Niter with
  | zero => simp [sviRun, adamInit]
  | succ t ih =>
    have hx : (sviRun lr grad x0 (t + 1) j).x = (sviRun lr grad x0 t j).x -
      lr * ((sviRun lr grad x0 (t + 1) j).m / (1 - (9 / 10) ^ (t + 1))) / (Real.sqrt ((sviRun lr grad x0 (t + 1) j).v / (1 - (999 / 1000) ^ (t + 1))) + 1 / 10 ^ 8) := rfl
    have h1 : ((9:ℝ) / 10) ^ (t + 1) < 1 := pow_lt_one₀ (by norm_num) (by norm_num) (by omega)
    have h2 : ((999:ℝ) / 1000) ^ (t + 1) < 1 := pow_lt_one₀ (by norm_num) (by norm_num) (by omega)
    rw [hx, ih, (key (t + 1)).1, (key (t + 1)).2, mul_div_cancel_left₀ _ (by linarith), mul_div_cancel_left₀ _ (by linarith), Real.sqrt_sq_eq_abs]
    push_cast
    ring

/-- **C135** is false: `find_map` does not find the MAP estimate of a model whose MAP is far from the start.  One parameter on the real line with log density `-(z - 50)² / 2`: the MAP is 50,
but from every start between -3 and 3 the default call returns a value below 6, where the log density is below -900. -/
theorem C135_far_fails (nm : String) (x0 : ℝ) (h0 : |x0| ≤ 3) :
    ∃ z, findMap (fun _ : Fin 1 => ⟨nm, id⟩) (fun x j => x j - 50) (fun _ => x0) = [(nm ++ "_auto_loc", z)] ∧ z < 6 ∧ -(z - 50) ^ 2 / 2 < -900 ∧
      (∀ y : ℝ, -(y - 50) ^ 2 / 2 ≤ -((50:ℝ) - 50) ^ 2 / 2) := by
  have h := C135_reach_default (lr := 1 / 100) (by norm_num) (fun (x : Fin 1 → ℝ) j => x j - 50) (fun _ => x0) (Niter := 100) le_rfl 0
  norm_num at h
  refine ⟨_, rfl, ?_, ?_, fun y => by nlinarith [sq_nonneg (y - 50)]⟩
  all_goals
    rw [abs_le] at h h0
    simp only [id]
    norm_num
    nlinarith [h.2, h0.2]

/-- the logistic map onto the interval `(a, b)`, the constraining map of a uniform prior -/
def logistic (a b u : ℝ) : ℝ := a + (b - a) * (1 / (1 + Real.exp (-u)))

/-- **C135** is false of bounded parameters.  A parameter with a uniform prior on `(a, b)`, started in the middle: whatever the model, the value returned by the default call is in the inner 82 percent
of the interval, so a MAP estimate in the outer parts is not found. -/
theorem C135_interval_fails {n : ℕ} (sites : Fin n → Latent) (grad : (Fin n → ℝ) → Fin n → ℝ) (x0 : Fin n → ℝ) (j : Fin n) {a b : ℝ} (hab : a < b) (hj : (sites j).constrain = logistic a b)
    (hstart : logistic a b (x0 j) = (a + b) / 2) :
    ∃ z, ((sites j).name ++ "_auto_loc", z) ∈ findMap sites grad x0 ∧ a + 0.09 * (b - a) < z ∧ z < a + 0.91 * (b - a) := by
  refine ⟨(sites j).constrain (sviRun (1 / 100) grad x0 100 j).x, List.mem_ofFn.2 ⟨j, rfl⟩, ?_⟩
  have hx0 : x0 j = 0 := by
    unfold logistic at hstart
    have h1 : (b - a) * (1 / (1 + Real.exp (-x0 j))) = (b - a) * (1 / 2) := by linarith
    have h2 := mul_left_cancel₀ (by linarith : b - a ≠ 0) h1
    have h3 : 0 < Real.exp (-x0 j) := Real.exp_pos _
    rw [div_eq_div_iff (by linarith) (by norm_num)] at h2
    have h4 : Real.exp (-x0 j) = 1 := by linarith
    rw [Real.exp_eq_one_iff] at h4
    linarith
  have h := C135_reach_default (lr := 1 / 100) (by norm_num) grad x0 (Niter := 100) le_rfl j
  rw [hx0, hj] at *
  generalize (sviRun (1 / 100) grad x0 100 j).x = u at *
  norm_num at h
  have e : Real.exp 2.31 < 10.1 := by
    have h1 : Real.exp 2.31 = Real.exp 1 ^ 2 * Real.exp 0.31 := by rw [← Real.exp_nat_mul, ← Real.exp_add]; norm_num
    have h2 : Real.exp 0.31 < 1.3645 := by
      have := Real.exp_bound_div_one_sub_of_interval (x := 0.31)
      have h3 : Real.exp 0.31 = Real.exp 0.0775 ^ 4 := by rw [← Real.exp_nat_mul]; norm_num
      have h4 : Real.exp 0.0775 ≤ 1.0807 := by
        have := Real.exp_bound' (x := 0.0775) (by norm_num) (by norm_num) (n := 3) (by norm_num)
        refine this.trans ?_
        norm_num [Finset.sum_range_succ, Nat.factorial]
      rw [h3]
      refine lt_of_le_of_lt (pow_le_pow_left₀ (Real.exp_pos _).le h4 4) ?_
      norm_num
    have h3 : Real.exp 1 ^ 2 ≤ 2.7182818286 ^ 2 := pow_le_pow_left₀ (Real.exp_pos _).le Real.exp_one_lt_d9.le 2
    rw [h1]
    refine lt_of_lt_of_le (mul_lt_mul' h3 h2 (Real.exp_pos _).le (by positivity)) ?_
    norm_num
  norm_num at e
  have hE : 0 < Real.exp (231 / 100) := Real.exp_pos _
  have hu1 : Real.exp (-u) ≤ Real.exp (231 / 100) := Real.exp_le_exp.2 (by linarith [(abs_le.1 h).1])
  have hu2 : (Real.exp (231 / 100))⁻¹ ≤ Real.exp (-u) := by rw [← Real.exp_neg]; exact Real.exp_le_exp.2 (by linarith [(abs_le.1 h).2])
  have hinv : (101 / 10 : ℝ)⁻¹ < (Real.exp (231 / 100))⁻¹ := inv_strictAnti₀ hE e
  norm_num at hinv
  have hs : 0 < Real.exp (-u) := Real.exp_pos _
  have f1 : (9 / 100 : ℝ) < 1 / (1 + Real.exp (-u)) := by rw [lt_div_iff₀ (by linarith)]; linarith
  have f2 : 1 / (1 + Real.exp (-u)) < (91 / 100 : ℝ) := by rw [div_lt_iff₀ (by linarith)]; linarith
  have hba : 0 < b - a := by linarith
  have g1 := mul_lt_mul_of_pos_left f1 hba
  have g2 := mul_lt_mul_of_pos_left f2 hba
  unfold logistic
  generalize 1 / (1 + Real.exp (-u)) = r at *
  constructor <;> norm_num <;> linarith

/-- **C135** (the gradient is taken anew at each step).  Log density `-x² / 2`, started at 1 with a learning rate such that the first step ends at the mode: the second step has gradient zero and
is due to the running mean alone, so it is shorter than the first. -/
theorem C135_second_step :
    let run := sviRun (n := 1) (1 + 1 / 10 ^ 8) (fun x j => x j) (fun _ => 1)
    (run 1 0).x = 0 ∧ -0.68 < (run 2 0).x ∧ (run 2 0).x < -0.66 := by
  intro run
  have h1 : run 1 = fun _ => ⟨0, 1 / 10, 1 / 1000⟩ := by
    funext j
    simp only [run, sviRun, adamStep, adamInit]
    norm_num
  have h2 : (run 2 0).x = -((1 + 1 / 10 ^ 8) * (9 / 19) / (Real.sqrt (999 / 1999) + 1 / 10 ^ 8)) := by
    have : run 2 0 = adamStep (1 + 1 / 10 ^ 8) 1 (run 1 0).x (run 1 0) := rfl
    rw [this, h1]
    simp only [adamStep]
    norm_num
  have l : (7069:ℝ) / 10000 < Real.sqrt (999 / 1999) := Real.lt_sqrt_of_sq_lt (by norm_num)
  have u : Real.sqrt (999 / 1999) < 7070 / 10000 := (Real.sqrt_lt' (by norm_num)).2 (by norm_num)
  generalize Real.sqrt (999 / 1999) = r at *
  refine ⟨by rw [h1], ?_, ?_⟩
  · rw [h2, neg_lt_neg_iff, div_lt_iff₀ (by linarith)]
    norm_num
    linarith
  · rw [h2, neg_lt_neg_iff, lt_div_iff₀ (by linarith)]
    norm_num
    linarith

/-- two parameters, one with a uniform prior on `(0, 10)` started in the middle: within the hypotheses -/
example : ∃ (sites : Fin 2 → Latent) (x0 : Fin 2 → ℝ), (sites 1).constrain = logistic 0 10 ∧ logistic 0 10 (x0 1) = (0 + 10) / 2 :=
  ⟨fun _ => ⟨"alpha", logistic 0 10⟩, fun _ => 0, rfl, by norm_num [logistic]⟩

/-- a steady slope of size one: a hundred steps move by just under one -/
example : |(sviRun (n := 1) (1 / 100) (fun _ _ => 1) (fun _ => 0) 100 0).x| < 1 := by
  rw [C135_steady_slope (1 / 100) _ _ 0 1 (fun _ => rfl)]
  norm_num

end GW
end
