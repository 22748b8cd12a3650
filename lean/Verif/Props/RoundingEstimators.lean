import Verif.Props.RoundingBasics

/-! # The Monte Carlo estimators in rounded arithmetic (lemmas for C133 and C134) -/

open Finset
noncomputable section
open Classical
namespace GW
open F

variable {f : Arith} {κ : ℝ}

theorem Arith.r_fin (f : Arith) (x : ℝ) : f.r (fin x) = f.rd x := rfl

/-- `a` is between `2⁻ᵐ` and `2ᵐ` -/
def Rg (m : ℕ) (a : ℝ) : Prop := 2⁻¹ ^ m ≤ a ∧ a ≤ 2 ^ m

theorem Rg.pos {m : ℕ} {a : ℝ} (h : Rg m a) : 0 < a := (by positivity : (0:ℝ) < 2⁻¹ ^ m).trans_le h.1

theorem Rg.mono {m k : ℕ} {a : ℝ} (hmk : m ≤ k) (h : Rg m a) : Rg k a :=
  ⟨(pow_le_pow_of_le_one (by norm_num) (by norm_num) hmk).trans h.1, h.2.trans (pow_le_pow_right₀ (by norm_num) hmk)⟩

theorem Rg.mul {m k : ℕ} {a b : ℝ} (h : Rg m a) (h' : Rg k b) : Rg (m + k) (a * b) := by
  unfold Rg; rw [pow_add, pow_add]
  exact ⟨mul_le_mul h.1 h'.1 (by positivity) h.pos.le, mul_le_mul h.2 h'.2 h'.pos.le (by positivity)⟩

theorem Rg.inv {m : ℕ} {a : ℝ} (h : Rg m a) : Rg m a⁻¹ := by
  constructor
  · rw [inv_pow]; exact inv_anti₀ h.pos h.2
  · have := inv_anti₀ (by positivity) h.1; rwa [inv_pow, inv_inv] at this

theorem Rg.div {m k : ℕ} {a b : ℝ} (h : Rg m a) (h' : Rg k b) : Rg (m + k) (a / b) := by
  rw [div_eq_mul_inv]; exact h.mul h'.inv

theorem Rg.nat {n m : ℕ} (h0 : 1 ≤ n) (h1 : n ≤ 2 ^ m) : Rg m (n : ℝ) :=
  ⟨(pow_le_one₀ (by norm_num) (by norm_num)).trans (by exact_mod_cast h0), by exact_mod_cast h1⟩

theorem Rg.log {m : ℕ} {a : ℝ} (h : Rg m a) : |Real.log a| ≤ 0.7 * m := by
  have hl : Real.log 2 ≤ 0.7 := by have := Real.log_two_lt_d9; norm_num at this ⊢; linarith
  have hm : (m : ℝ) * Real.log 2 ≤ 0.7 * m := by rw [mul_comm]; exact mul_le_mul_of_nonneg_right hl (by positivity)
  have h1 := Real.log_le_log h.pos h.2
  have h2 := Real.log_le_log (by positivity) h.1
  rw [Real.log_pow] at h1 h2
  rw [Real.log_inv] at h2
  rw [abs_le]
  constructor <;> linarith

theorem Rg.range {m : ℕ} (hm : m ≤ 124) {a : ℝ} (h : Rg m a) : 3 * flLo ≤ a ∧ 3 * a ≤ flHi := by
  have h' := h.mono hm
  constructor
  · refine le_trans ?_ h'.1; unfold flLo; norm_num
  · have := h'.2; unfold flHi; norm_num at this ⊢; linarith

/-- rounding a number known within a factor -/
theorem Arith.Contract.rdW (C : f.Contract κ) {m : ℕ} {a x ε : ℝ} (h : Rg m a) (hm : m ≤ 124) (hε : ε ≤ 1) (w : Within ε a x) :
    ∃ y, f.rd x = fin y ∧ Within (ε + 2 * κ) a y := by
  have hr := h.range hm
  have h1 := w.le_three hε h.pos.le
  have h2 := w.third_le hε h.pos.le
  obtain ⟨y, hy, wy⟩ := C.rd_within (x := x) (by linarith) (by linarith)
  exact ⟨y, hy, w.trans wy⟩

/-- logarithm of a number known within a factor -/
theorem Arith.Contract.logW (C : f.Contract κ) {m : ℕ} {a x ε : ℝ} (h : Rg m a) (hm : m ≤ 124) (hε : ε ≤ 1) (w : Within ε a x) :
    ∃ y, f.log (fin x) = fin y ∧ |y - Real.log a| ≤ ε + κ * (2 + 0.7 * m) := by
  have hr := h.range hm
  have h1 := w.le_three hε h.pos.le
  have h2 := w.third_le hε h.pos.le
  obtain ⟨y, hy, ey⟩ := C.log_norm x (by linarith) (by linarith)
  refine ⟨y, hy, ?_⟩
  have h3 := w.log h.pos
  have h4 := h.log
  have h5 : |Real.log x| ≤ 1 + 0.7 * m := by
    have : Real.log x = (Real.log x - Real.log a) + Real.log a := by ring
    rw [this]; exact (abs_add_le _ _).trans (by linarith)
  have h6 : y - Real.log a = (y - Real.log x) + (Real.log x - Real.log a) := by ring
  rw [h6]
  refine (abs_add_le _ _).trans ?_
  have h7 : κ * (1 + |Real.log x|) ≤ κ * (2 + 0.7 * m) := mul_le_mul_of_nonneg_left (by linarith) C.pos.le
  linarith

/-- rounding of a number known up to an absolute error -/
theorem Arith.Contract.rdA (C : f.Contract κ) {a x ε K : ℝ} (hK : |a| + ε ≤ K) (hK' : K ≤ 2 ^ 100) (h : |x - a| ≤ ε) :
    ∃ y, f.rd x = fin y ∧ |y - a| ≤ ε + κ * (1 + K) := by
  have hx : |x| ≤ K := by
    have : x = (x - a) + a := by ring
    rw [this]; exact (abs_add_le _ _).trans (by linarith)
  obtain ⟨y, hy, ey⟩ := C.rd_abs (x := x) (hx.trans (hK'.trans (by unfold flHi; norm_num)))
  refine ⟨y, hy, ?_⟩
  have : y - a = (y - x) + (x - a) := by ring
  rw [this]
  refine (abs_add_le _ _).trans ?_
  have := mul_le_mul_of_nonneg_left (show 1 + |x| ≤ 1 + K by linarith) C.pos.le
  linarith

/-- exponential of a number known up to an absolute error -/
theorem Arith.Contract.expA (C : f.Contract κ) {a x ε : ℝ} (hx : |x| ≤ 80) (h : |x - a| ≤ ε) :
    ∃ y, f.exp (fin x) = fin y ∧ Within (ε + κ) (Real.exp a) y := by
  obtain ⟨y, hy, wy⟩ := C.exp_norm x hx
  exact ⟨y, hy, (Within.of_abs_log h).trans wy⟩

theorem sum_rg {n m : ℕ} (hn : n ≤ 2 ^ 24) {w : Fin n → ℝ} (hw : ∀ i, w i = 0 ∨ Rg m (w i)) (hp : ∃ i, 0 < w i) :
    2⁻¹ ^ m ≤ ∑ i, w i ∧ ∑ i, w i ≤ 2 ^ (m + 24) := by
  have hw0 : ∀ i, 0 ≤ w i := fun i => (hw i).elim (fun h => h.symm.le) fun h => h.pos.le
  constructor
  · obtain ⟨i, hi⟩ := hp
    have h1 : 2⁻¹ ^ m ≤ w i := ((hw i).resolve_left hi.ne').1
    exact h1.trans (Finset.single_le_sum (fun j _ => hw0 j) (mem_univ i))
  · calc ∑ i, w i ≤ ∑ _i : Fin n, (2:ℝ) ^ m := Finset.sum_le_sum fun i _ => (hw i).elim (fun h => by rw [h]; positivity) fun h => h.2
      _ = n * 2 ^ m := by simp
      _ ≤ 2 ^ 24 * 2 ^ m := mul_le_mul_of_nonneg_right (by exact_mod_cast hn) (by positivity)
      _ = 2 ^ (m + 24) := by rw [← pow_add]; congr 1; ring

theorem sum_Rg {n m : ℕ} (hn : n ≤ 2 ^ 24) {w : Fin n → ℝ} (hw : ∀ i, w i = 0 ∨ Rg m (w i)) (hp : ∃ i, 0 < w i) : Rg (m + 24) (∑ i, w i) :=
  have h := sum_rg hn hw hp
  ⟨(pow_le_pow_of_le_one (by norm_num) (by norm_num) (by omega)).trans h.1, h.2⟩

/-- a rounded sum of numbers known within a factor -/
theorem Arith.Contract.sumW (C : f.Contract κ) {n m D : ℕ} (hn : n ≤ 2 ^ 24) {a : Fin n → F} {x w : Fin n → ℝ} {δ : ℝ} (ha : ∀ i, a i = fin (x i))
    (hδ : δ ≤ 1) (hxw : ∀ i, Within δ (w i) (x i)) (hw : ∀ i, w i = 0 ∨ Rg m (w i)) (hm : m ≤ 99) (t : RTree n) (ht : t.Covers) (hD : t.depth ≤ D)
    (hDκ : 2 * (κ * D) ≤ 1) : ∃ s, f.sum a t = fin s ∧ Within (δ + 2 * (κ * D)) (∑ i, w i) s := by
  have hw0 : ∀ i, 0 ≤ w i := fun i => (hw i).elim (fun h => h.symm.le) fun h => h.pos.le
  have hx : ∀ i, x i = 0 ∨ 3 * flLo ≤ x i := by
    intro i
    rcases hw i with h | h
    · left
      have := hxw i; rw [h] at this
      exact le_antisymm (by simpa using this.2) (by simpa using this.1)
    · right
      have h1 := (hxw i).third_le hδ (hw0 i)
      have h2 := (h.mono hm).1
      have h3 : 3 * flLo ≤ 2⁻¹ ^ 99 / 3 := by unfold flLo; norm_num
      linarith
  have hS : 3 * t.total x ≤ flHi := by
    rw [ht.total]
    have h1 := (Within.sum hxw).le_three hδ (Finset.sum_nonneg fun i _ => hw0 i)
    have h2 : ∑ i, w i ≤ 2 ^ 123 := by
      by_cases hp : ∃ i, 0 < w i
      · exact (sum_rg hn hw hp).2.trans (pow_le_pow_right₀ (by norm_num) (by omega))
      · push Not at hp
        exact (Finset.sum_nonpos fun i _ => hp i).trans (by positivity)
    have h3 : (9:ℝ) * 2 ^ 123 ≤ flHi := by unfold flHi; norm_num
    linarith
  obtain ⟨s, hs, e⟩ := C.sum_within ha hx t hD (by linarith) hS
  refine ⟨s, hs, ?_⟩
  rw [ht.total] at e
  have := (Within.sum hxw).trans e
  rwa [show δ + 2 * κ * D = δ + 2 * (κ * D) by ring] at this

/-- squares of numbers known within a factor, rounded -/
theorem Arith.Contract.sqW (C : f.Contract κ) {m : ℕ} {w x δ : ℝ} (hδ : 2 * δ ≤ 1) (hw : w = 0 ∨ Rg m w) (hm : m + m ≤ 124) (h : Within δ w x) :
    ∃ y, f.r (sq (fin x)) = fin y ∧ Within (2 * δ + 2 * κ) (w ^ 2) y := by
  rcases hw with hw | hw
  · subst hw
    have : x = 0 := le_antisymm (by simpa using h.2) (by simpa using h.1)
    subst this
    exact ⟨0, by simp [Arith.r, C.rd_zero], by simp [Within]⟩
  · have h2 := h.sq hw.pos.le
    have hr : Rg (m + m) (w ^ 2) := by rw [pow_two]; exact hw.mul hw
    obtain ⟨y, hy, wy⟩ := C.rdW hr hm hδ h2
    exact ⟨y, by simp only [sq_fin, Arith.r, ← pow_two]; exact hy, wy⟩

/-- quotients of numbers known within a factor, rounded -/
theorem Arith.Contract.divW (C : f.Contract κ) {m : ℕ} {a b x y ε δ : ℝ} (ha : 0 < a) (hb : 0 < b) (hr : Rg m (a / b)) (hm : m ≤ 124) (h : ε + δ ≤ 1)
    (wa : Within ε a x) (wb : Within δ b y) : ∃ z, f.r (fin x / fin y) = fin z ∧ Within (ε + δ + 2 * κ) (a / b) z := by
  rw [div_fin (wb.pos hb).ne']
  exact C.rdW hr hm h (wa.div ha hb wb)

/-- non-negative weights, the largest of them between `exp (-K)` and `exp K` -/
structure Peak {n : ℕ} (K : ℝ) (w : Fin n → ℝ) : Prop where
  nonneg : ∀ i, 0 ≤ w i
  top : ∃ j, (∀ i, w i ≤ w j) ∧ 0 < w j ∧ |Real.log (w j)| ≤ K

theorem Peak.pos {n : ℕ} {K : ℝ} {w : Fin n → ℝ} (h : Peak K w) : ∃ i, 0 < w i := let ⟨j, _, hj, _⟩ := h.top; ⟨j, hj⟩

theorem Peak.K_nonneg {n : ℕ} {K : ℝ} {w : Fin n → ℝ} (h : Peak K w) : 0 ≤ K := let ⟨_, _, _, hj⟩ := h.top; (abs_nonneg _).trans hj

/-- the largest weight and the sum of the weights -/
theorem sum_top {n : ℕ} {w : Fin n → ℝ} (hw : ∀ i, 0 ≤ w i) {j : Fin n} (hj : ∀ i, w i ≤ w j) : w j ≤ ∑ i, w i ∧ ∑ i, w i ≤ n * w j := by
  refine ⟨Finset.single_le_sum (fun i _ => hw i) (mem_univ j), ?_⟩
  calc ∑ i, w i ≤ ∑ _i : Fin n, w j := Finset.sum_le_sum fun i _ => hj i
    _ = n * w j := by simp

theorem sum_top_log {n : ℕ} (hn : n ≤ 2 ^ 24) {K : ℝ} {w : Fin n → ℝ} (hw : ∀ i, 0 ≤ w i) {j : Fin n} (hj : ∀ i, w i ≤ w j) (hj0 : 0 < w j) (hK : |Real.log (w j)| ≤ K) :
    |Real.log (∑ i, w i)| ≤ K + 16.8 := by
  obtain ⟨h1, h2⟩ := sum_top hw hj
  have hn1 : 1 ≤ n := Fin.pos j
  have hnr : (0:ℝ) < n := by exact_mod_cast hn1
  have h3 := Real.log_le_log hj0 h1
  have h4 := Real.log_le_log (hj0.trans_le h1) h2
  rw [Real.log_mul hnr.ne' hj0.ne'] at h4
  have h5 := (Rg.nat hn1 hn).log
  norm_num at h5
  rw [abs_le] at hK h5 ⊢
  norm_num
  constructor <;> linarith [hK.1, hK.2, h5.2]

theorem Peak.sum_log {n : ℕ} (hn : n ≤ 2 ^ 24) {K : ℝ} {w : Fin n → ℝ} (h : Peak K w) : |Real.log (∑ i, w i)| ≤ K + 16.8 := by
  obtain ⟨j, h1, h2, h3⟩ := h.top
  exact sum_top_log hn h.nonneg h1 h2 h3

theorem Peak.mean_log {n : ℕ} (hn : n ≤ 2 ^ 24) {K : ℝ} {w : Fin n → ℝ} (h : Peak K w) : |Real.log (mean w)| ≤ K + 16.8 := by
  obtain ⟨j, hj, hj0, hK⟩ := h.top
  obtain ⟨h1, h2⟩ := sum_top h.nonneg hj
  have hn1 : 1 ≤ n := Fin.pos j
  have hnr : (0:ℝ) < n := by exact_mod_cast hn1
  have hS := hj0.trans_le h1
  have h3 := Real.log_le_log hj0 h1
  have h4 := Real.log_le_log hS h2
  rw [Real.log_mul hnr.ne' hj0.ne'] at h4
  have h5 := (Rg.nat hn1 hn).log
  norm_num at h5
  unfold mean
  rw [Real.log_div hS.ne' hnr.ne']
  rw [abs_le] at hK h5 ⊢
  norm_num
  have h6 : 0 ≤ Real.log n := Real.log_nonneg (by exact_mod_cast hn1)
  constructor <;> linarith [hK.1, hK.2, h5.2]

theorem Rg.of_log {a : ℝ} (ha : 0 < a) (h : |Real.log a| ≤ 13) : Rg 19 a := by
  have e : Real.exp 13 ≤ 2 ^ 19 := by
    have : Real.exp 13 = Real.exp 1 ^ 13 := by rw [← Real.exp_nat_mul]; norm_num
    rw [this]
    refine (pow_le_pow_left₀ (Real.exp_pos _).le Real.exp_one_lt_d9.le 13).trans ?_
    norm_num
  rw [abs_le] at h
  constructor
  · rw [← Real.exp_log ha]
    refine le_trans ?_ (Real.exp_le_exp.2 h.1)
    rw [Real.exp_neg, inv_pow]
    exact inv_anti₀ (Real.exp_pos _) e
  · rw [← Real.exp_log ha]
    exact (Real.exp_le_exp.2 h.2).trans e

theorem Peak.bounds {n : ℕ} {K : ℝ} {w : Fin n → ℝ} (h : Peak K w) (hK : K ≤ 13) : (∀ i, w i ≤ 2 ^ 19) ∧ ∃ j, 2⁻¹ ^ 19 ≤ w j := by
  obtain ⟨j, hj, hj0, hjK⟩ := h.top
  have := Rg.of_log hj0 (hjK.trans hK)
  exact ⟨fun i => (hj i).trans this.2, j, this.1⟩

theorem Peak.sum_Rg {n : ℕ} (hn : n ≤ 2 ^ 24) {K : ℝ} {w : Fin n → ℝ} (h : Peak K w) (hK : K ≤ 13) : 2⁻¹ ^ 19 ≤ ∑ i, w i ∧ ∑ i, w i ≤ 2 ^ 43 := by
  obtain ⟨j, hj, hj0, hjK⟩ := h.top
  have hr := Rg.of_log hj0 (hjK.trans hK)
  obtain ⟨h1, h2⟩ := sum_top h.nonneg hj
  refine ⟨hr.1.trans h1, h2.trans ?_⟩
  calc (n:ℝ) * w j ≤ 2 ^ 24 * 2 ^ 19 := mul_le_mul (by exact_mod_cast hn) hr.2 hj0.le (by norm_num)
    _ = 2 ^ 43 := by norm_num

theorem Peak.sumsq_Rg {n : ℕ} (hn : n ≤ 2 ^ 24) {K : ℝ} {w : Fin n → ℝ} (h : Peak K w) (hK : K ≤ 13) : 2⁻¹ ^ 38 ≤ ∑ i, w i ^ 2 ∧ ∑ i, w i ^ 2 ≤ 2 ^ 62 := by
  obtain ⟨j, hj, hj0, hjK⟩ := h.top
  have hr := Rg.of_log hj0 (hjK.trans hK)
  obtain ⟨h1, h2⟩ := sum_top (w := fun i => w i ^ 2) (fun i => sq_nonneg _) (j := j) (fun i => pow_le_pow_left₀ (h.nonneg i) (hj i) 2)
  have r2 : Rg 38 (w j ^ 2) := by rw [pow_two]; exact hr.mul hr
  refine ⟨r2.1.trans h1, h2.trans ?_⟩
  calc (n:ℝ) * w j ^ 2 ≤ 2 ^ 24 * 2 ^ 38 := mul_le_mul (by exact_mod_cast hn) r2.2 (by positivity) (by norm_num)
    _ = 2 ^ 62 := by norm_num

/-- a rounded sum of non-negative numbers known up to a factor and an amount small against the sum -/
theorem Arith.Contract.sumP (C : f.Contract κ) {n D : ℕ} (hn : n ≤ 2 ^ 24) {a : Fin n → F} {x w : Fin n → ℝ} {δ η : ℝ} (hδ0 : 0 ≤ δ) (hη : 0 ≤ η) (ha : ∀ i, a i = fin (x i))
    (hw : ∀ i, 0 ≤ w i) (hxw : ∀ i, Near δ η (w i) (x i)) (t : RTree n) (ht : t.Covers) (hD : t.depth ≤ D) (hDκ : δ + 2 * (κ * D) ≤ 1)
    (hS0 : 2 ^ 28 * (η + flLo) ≤ 2⁻¹ ^ 50 * ∑ i, w i) (hS1 : ∑ i, w i ≤ 2 ^ 100) : ∃ s, f.sum a t = fin s ∧ Within (δ + 2 * (κ * D) + κ) (∑ i, w i) s := by
  have κ0 := C.pos
  have hlo := flLo_pos
  have hS : 0 < ∑ i, w i := by
    by_contra hc
    have h2 := mul_nonpos_of_nonneg_of_nonpos (show (0:ℝ) ≤ 2⁻¹ ^ 50 by positivity) (not_lt.1 hc)
    have h3 : (0:ℝ) < 2 ^ 28 * (η + flLo) := mul_pos (by norm_num) (by linarith)
    linarith
  have hB : (t.leaves.length : ℝ) * (η + flLo) ≤ 2 ^ 24 * (η + flLo) := by
    rw [ht.length]
    exact mul_le_mul_of_nonneg_right (by exact_mod_cast hn) (by linarith)
  obtain ⟨s, hs, ns⟩ := C.sum_near (δ := δ) (η := η) hδ0 hη ha hw hxw t hD (by linarith) hB (by
    rw [ht.total]
    have : flHi = 2 ^ 127 := rfl
    rw [this]
    norm_num at hS0 hS1 ⊢
    linarith)
  refine ⟨s, hs, ?_⟩
  rw [ht.total, show δ + 2 * κ * D = δ + 2 * (κ * D) by ring] at ns
  have hq : 0 ≤ κ * D := by positivity
  refine ns.within (by linarith) hDκ (C.le_half.trans (by norm_num)) ?_ (mul_nonneg two_pos.le (mul_nonneg (by norm_num) (by linarith))) hS
  have : 2⁻¹ ^ 50 * ∑ i, w i ≤ κ * ∑ i, w i := mul_le_mul_of_nonneg_right C.tiny hS.le
  norm_num at hS0 ⊢
  norm_num at this
  linarith

theorem kish_Rg {n : ℕ} (hn : n ≤ 2 ^ 24) {w : Fin n → ℝ} (hw : ∀ i, 0 ≤ w i) (hp : ∃ i, 0 < w i) : Rg 24 (kish w) := by
  have h := kish_bounds w hw hp
  refine ⟨(pow_le_one₀ (by norm_num) (by norm_num)).trans h.1, h.2.1.trans (by exact_mod_cast hn)⟩

/-- `T` bounds the accumulated error: `(D + 1) κ` for sums of depth `D` -/
structure Budget (κ : ℝ) (D : ℕ) (T : ℝ) : Prop where
  eq : T = κ * D + κ
  le : T ≤ 2⁻¹ ^ 12

theorem Budget.q {D : ℕ} {T : ℝ} (h : Budget κ D T) (hκ : 0 < κ) : 0 ≤ κ * D ∧ T = κ * D + κ ∧ T ≤ 1 / 4096 ∧ 0 < T := by
  have : 0 ≤ κ * D := by positivity
  exact ⟨this, h.eq, h.le.trans (by norm_num), by rw [h.eq]; linarith⟩

/-- the linear estimate for one event -/
theorem row_linear (C : f.Contract κ) {N D : ℕ} {T K : ℝ} (hT : Budget κ D T) (hN : N ≤ 2 ^ 24) {w : Fin N → ℝ} (hw : Peak K w) (hK : K ≤ 13)
    {t t2 : RTree N} (ht : t.Covers) (ht2 : t2.Covers) (hD : t.depth ≤ D) (hD2 : t2.depth ≤ D) :
    ∃ x y, (perEventRowR f t t2 (fun i => fin (w i)) false).1 = fin x ∧ (perEventRowR f t t2 (fun i => fin (w i)) false).2.1 = fin y ∧
      |x - Real.log (mean w)| ≤ 240 * T ∧ |y - Real.log (kish w)| ≤ 700 * T := by
  obtain ⟨q0, hTe, hT1, hT0⟩ := hT.q C.pos
  have κ0 := C.pos
  have hp := hw.pos
  have hN1 := card_pos_of hp
  have hNr : (0:ℝ) < N := by exact_mod_cast hN1
  obtain ⟨hS, hQ⟩ := sum_pos_of hw.nonneg hp
  obtain ⟨s1, s2⟩ := hw.sum_Rg hN hK
  obtain ⟨q1, q2⟩ := hw.sumsq_Rg hN hK
  obtain ⟨b1, -⟩ := hw.bounds hK
  have rS : Rg 43 (∑ i, w i) := ⟨le_trans (by norm_num) s1, s2⟩
  have hlo : flLo ≤ 2⁻¹ ^ 126 := le_rfl
  obtain ⟨s, hs, ws⟩ := C.sumP hN (δ := 0) (η := 0) le_rfl le_rfl (fun i => rfl) hw.nonneg (fun i => (Within.refl' le_rfl (hw.nonneg i)).near le_rfl) t ht hD (by linarith)
    (by norm_num at hlo s1 ⊢; linarith) (s2.trans (by norm_num))
  have hsq : ∀ i, ∃ y, f.r (sq (fin (w i))) = fin y ∧ Near (2 * κ) flLo (w i ^ 2) y := fun i => by
    have h2 : w i ^ 2 ≤ (2 ^ 19) ^ 2 := pow_le_pow_left₀ (hw.nonneg i) (b1 i) 2
    obtain ⟨y, hy, ny⟩ := C.rd_near (δ := 0) (η := 0) (a := w i ^ 2) (x := w i ^ 2) le_rfl le_rfl (sq_nonneg _) (by rw [abs_of_nonneg (sq_nonneg _)]; unfold flHi; norm_num at h2 ⊢; linarith)
      ((Within.refl' le_rfl (sq_nonneg _)).near le_rfl)
    refine ⟨y, by rw [sq_fin, Arith.r_fin, ← pow_two, hy], ?_⟩
    simpa using ny
  choose v hv wv using hsq
  obtain ⟨s2, hs2, ws2⟩ := C.sumP hN (by linarith) flLo_pos.le hv (fun i => sq_nonneg _) wv t2 ht2 hD2 (by linarith) (by norm_num at hlo q1 ⊢; linarith) (q2.trans (by norm_num))
  have hnat : f.rd N = fin N := C.rd_nat N hN
  -- the mean
  have rN := Rg.nat hN1 hN
  obtain ⟨b, hb, wb⟩ := C.divW hS hNr (rS.div rN) (by norm_num) (δ := 0) (by linarith) ws (Within.refl' le_rfl hNr.le)
  obtain ⟨x, hx, ex⟩ := C.logW (rS.div rN) (by norm_num) (by linarith) wb
  -- the effective number
  obtain ⟨p, hp', wp⟩ := C.sqW (by linarith) (Or.inr rS) (by norm_num) ws
  have rk := kish_Rg hN hw.nonneg hp
  obtain ⟨z, hz, wz⟩ := C.divW (pow_pos hS 2) hQ rk (by norm_num) (by linarith) wp ws2
  obtain ⟨y, hy, ey⟩ := C.logW rk (by norm_num) (by linarith) wz
  refine ⟨x, y, ?_, ?_, ?_, ?_⟩
  · simp only [perEventRowR, Bool.false_eq_true, if_false, hs, hnat, hb, hx]
  · simp only [perEventRowR, Bool.false_eq_true, if_false, hs, hs2, hp', hz, hy]
  · refine ex.trans ?_
    norm_num
    linarith
  · refine ey.trans ?_
    norm_num
    linarith

/-! ### the log path -/

theorem maxF_ninf_fin {n : ℕ} (a : Fin n → F) (ha : ∀ i, a i = ninf ∨ ∃ x, a i = fin x) (hp : ∃ i x, a i = fin x) :
    ∃ M, maxF a = fin M ∧ (∀ i x, a i = fin x → x ≤ M) ∧ ∃ i, a i = fin M := by
  have hgen : ∀ s : Finset (Fin n), (s.fold F.max ninf a = ninf ∧ ∀ i ∈ s, a i = ninf) ∨
      ∃ M, s.fold F.max ninf a = fin M ∧ (∀ i ∈ s, ∀ x, a i = fin x → x ≤ M) ∧ ∃ i ∈ s, a i = fin M := by
    intro s
    induction s using Finset.induction with
    | empty => left; simp
    | insert i s hi ih =>
      rw [Finset.fold_insert hi]
      rcases ha i with h | ⟨x, h⟩
      · rcases ih with ⟨h1, h2⟩ | ⟨M, h1, h2, j, hj, h3⟩
        · left
          refine ⟨by rw [h, h1]; simp [F.max], ?_⟩
          intro k hk
          rcases Finset.mem_insert.1 hk with rfl | hk
          · exact h
          · exact h2 k hk
        · right
          refine ⟨M, by rw [h, h1]; simp [F.max], ?_, j, Finset.mem_insert_of_mem hj, h3⟩
          intro k hk y hy
          rcases Finset.mem_insert.1 hk with rfl | hk
          · rw [h] at hy; cases hy
          · exact h2 k hk y hy
      · right
        rcases ih with ⟨h1, h2⟩ | ⟨M, h1, h2, j, hj, h3⟩
        · refine ⟨x, by rw [h, h1]; simp [F.max], ?_, i, Finset.mem_insert_self _ _, h⟩
          intro k hk y hy
          rcases Finset.mem_insert.1 hk with rfl | hk
          · rw [h] at hy; cases hy; exact le_rfl
          · rw [h2 k hk] at hy; cases hy
        · by_cases hxM : x ≤ M
          · refine ⟨M, by rw [h, h1]; simp [F.max, hxM], ?_, j, Finset.mem_insert_of_mem hj, h3⟩
            intro k hk y hy
            rcases Finset.mem_insert.1 hk with rfl | hk
            · rw [h] at hy; cases hy; exact hxM
            · exact h2 k hk y hy
          · refine ⟨x, by rw [h, h1]; simp [F.max, hxM], ?_, i, Finset.mem_insert_self _ _, h⟩
            intro k hk y hy
            rcases Finset.mem_insert.1 hk with rfl | hk
            · rw [h] at hy; cases hy; exact le_rfl
            · exact (h2 k hk y hy).trans (not_le.1 hxM).le
  rcases hgen univ with ⟨_, h⟩ | ⟨M, h1, h2, i, _, h3⟩
  · obtain ⟨i, x, hx⟩ := hp
    rw [h i (mem_univ i)] at hx; cases hx
  · exact ⟨M, h1, fun i x => h2 i (mem_univ i) x, i, h3⟩

/-- `logsumexp` of logarithms that are known up to an absolute error `β`, or belong to negligible weights -/
theorem Arith.Contract.lse (C : f.Contract κ) {n D : ℕ} {T : ℝ} (hT : Budget κ D T) (hn : n ≤ 2 ^ 24) {w : Fin n → ℝ} {K : ℝ} (hw : ∀ i, 0 ≤ w i) {j : Fin n} (hj : ∀ i, w i ≤ w j) (hj0 : 0 < w j)
    (hK : |Real.log (w j)| ≤ K) (hKκ : κ * K ≤ 1 / 16) {a : Fin n → F} {β : ℝ} (hβ0 : 0 ≤ β) (hβ : β ≤ 1 / 4)
    (ha : ∀ i, (w i ≤ 2⁻¹ ^ 110 * w j ∧ (a i = ninf ∨ ∃ b, a i = fin b ∧ b ≤ Real.log (w j) - 76)) ∨ (0 < w i ∧ ∃ b, a i = fin b ∧ |b - Real.log (w i)| ≤ β))
    {t : RTree n} (ht : t.Covers) (hD : t.depth ≤ D) :
    ∃ l, f.logsumexp t a = fin l ∧ |l - Real.log (∑ i, w i)| ≤ β + κ * (130 + K) + 2 * (κ * D) := by
  obtain ⟨q0, hTe, hT1, hT0⟩ := hT.q C.pos
  have κ0 := C.pos
  have hκ1 : κ ≤ 1 / 4096 := by linarith
  have hK0 : 0 ≤ K := (abs_nonneg _).trans hK
  have hKbig : K ≤ 2 ^ 60 := by
    have h1 : 2⁻¹ ^ 50 * K ≤ κ * K := mul_le_mul_of_nonneg_right C.tiny hK0
    norm_num at h1 ⊢; linarith
  obtain ⟨bj, hbj, ebj⟩ : ∃ b, a j = fin b ∧ |b - Real.log (w j)| ≤ β := by
    rcases ha j with ⟨h, -⟩ | ⟨-, h⟩
    · norm_num at h; linarith
    · exact h
  obtain ⟨M, hM, hMle, j', hj'⟩ := maxF_ninf_fin a (fun i => (ha i).elim (fun h => h.2.imp id fun ⟨b, hb, _⟩ => ⟨b, hb⟩) fun h => Or.inr ⟨_, h.2.choose_spec.1⟩) ⟨j, bj, hbj⟩
  have hMj : |M - Real.log (w j)| ≤ β := by
    have h1 := hMle j bj hbj
    rw [abs_le] at ebj ⊢
    refine ⟨by linarith [ebj.1], ?_⟩
    rcases ha j' with ⟨-, h | ⟨b, hb, hb'⟩⟩ | ⟨h0, b, hb, eb⟩
    · rw [h] at hj'; cases hj'
    · rw [hb] at hj'; cases hj'; linarith
    · rw [hb] at hj'; cases hj'
      have := Real.log_le_log h0 (hj j')
      linarith [(abs_le.1 eb).2]
  have e74 : Real.exp (-74) ≤ 2⁻¹ ^ 101 := by
    have : Real.exp (-74) = (Real.exp 1 ^ 74)⁻¹ := by rw [← Real.exp_nat_mul, ← Real.exp_neg]; norm_num
    rw [this]
    refine (inv_anti₀ (by positivity) (pow_le_pow_left₀ (by norm_num) Real.exp_one_gt_d9.le 74)).trans ?_
    norm_num
  have eβ : Real.exp β ≤ 2 := by
    refine (Real.exp_le_exp.2 hβ).trans ?_
    have e : Real.exp (1 / 4) ^ 4 = Real.exp 1 := by rw [← Real.exp_nat_mul]; norm_num
    have := Real.exp_one_lt_d9
    by_contra h
    push Not at h
    have h4 : (2:ℝ) ^ 4 ≤ Real.exp (1 / 4) ^ 4 := pow_le_pow_left₀ (by norm_num) h.le 4
    rw [e] at h4; norm_num at h4; linarith
  have eβ' : 2⁻¹ ≤ Real.exp (-β) := by rw [Real.exp_neg]; exact inv_anti₀ (Real.exp_pos _) eβ
  have hWM : 2⁻¹ ≤ w j * Real.exp (-M) ∧ w j * Real.exp (-M) ≤ 2 := by
    rw [abs_le] at hMj
    have e : w j * Real.exp (-M) = Real.exp (Real.log (w j) - M) := by rw [sub_eq_add_neg, Real.exp_add, Real.exp_log hj0]
    rw [e]
    exact ⟨eβ'.trans (Real.exp_le_exp.2 (by linarith)), (Real.exp_le_exp.2 (by linarith)).trans eβ⟩
  -- negligible entries
  have hsmall : ∀ b, b - M ≤ -75 → ∃ y, f.exp (f.r (fin b - fin M)) = fin y ∧ 0 ≤ y ∧ y ≤ 2⁻¹ ^ 101 := by
    intro b hb
    have hexp : ∀ d, d ≤ -74.9 → ∃ y, f.exp (fin d) = fin y ∧ 0 ≤ y ∧ y ≤ 2⁻¹ ^ 101 := by
      intro d hd
      norm_num at hd
      by_cases h80 : d < -80
      · obtain ⟨y, hy, h0, h1⟩ := C.exp_small d h80
        exact ⟨y, hy, h0, h1.trans (by norm_num)⟩
      · obtain ⟨y, hy, wy⟩ := C.exp_norm d (by rw [abs_le]; constructor <;> linarith)
        refine ⟨y, hy, (mul_nonneg (Real.exp_pos _).le (Real.exp_pos _).le).trans wy.1, wy.2.trans ?_⟩
        rw [← Real.exp_add]
        exact (Real.exp_le_exp.2 (by linarith)).trans e74
    rw [sub_fin, Arith.r_fin]
    by_cases hb' : b - M < -flHi
    · rcases C.rd_over _ hb' with h | ⟨d, h, hd⟩
      · rw [h, C.exp_ninf]; exact ⟨0, rfl, le_rfl, by positivity⟩
      · rw [h]; exact hexp d (hd.trans (by norm_num))
    · have habs : |b - M| = -(b - M) := abs_of_nonpos (by linarith)
      obtain ⟨d, h, ed⟩ := C.rd_norm (b - M) (by rw [habs]; have := flLo_le_one; linarith) (by rw [habs]; linarith)
      rw [h]
      refine hexp d ?_
      rw [habs, abs_le] at ed
      norm_num
      nlinarith [ed.2]
  have hnear0 : ∀ {δ A y : ℝ}, 0 ≤ δ → 0 ≤ A → A ≤ 2⁻¹ ^ 101 → 0 ≤ y → y ≤ 2⁻¹ ^ 101 → Near δ (2⁻¹ ^ 100) A y := by
    intro δ A y hδ hA0 hA hy0 hy
    have e1 : Real.exp (-δ) * A ≤ 1 * A := mul_le_mul_of_nonneg_right (Real.exp_le_one_iff.2 (by linarith)) hA0
    have e2 : 0 ≤ Real.exp δ * A := mul_nonneg (Real.exp_pos _).le hA0
    norm_num at hA hy
    constructor <;> norm_num <;> linarith
  -- the exponentials
  have hex : ∀ i, ∃ y, f.exp (f.r (a i - fin M)) = fin y ∧ Near (β + 77 * κ) (2⁻¹ ^ 100) (w i * Real.exp (-M)) y := by
    intro i
    have hA0 : 0 ≤ w i * Real.exp (-M) := mul_nonneg (hw i) (Real.exp_pos _).le
    have hδ0 : 0 ≤ β + 77 * κ := by linarith
    rcases ha i with ⟨h0, h⟩ | ⟨h0, b, hb, e⟩
    · have hA : w i * Real.exp (-M) ≤ 2⁻¹ ^ 101 := by
        calc w i * Real.exp (-M) ≤ 2⁻¹ ^ 110 * w j * Real.exp (-M) := mul_le_mul_of_nonneg_right h0 (Real.exp_pos _).le
          _ = 2⁻¹ ^ 110 * (w j * Real.exp (-M)) := by ring
          _ ≤ 2⁻¹ ^ 110 * 2 := mul_le_mul_of_nonneg_left hWM.2 (by positivity)
          _ ≤ 2⁻¹ ^ 101 := by norm_num
      rcases h with h | ⟨b, hb, hb'⟩
      · refine ⟨0, by rw [h]; simp [Arith.r, C.exp_ninf], hnear0 hδ0 hA0 hA le_rfl (by positivity)⟩
      · obtain ⟨y, hy, y0, y1⟩ := hsmall b (by rw [abs_le] at hMj; linarith [hMj.1])
        exact ⟨y, by rw [hb, hy], hnear0 hδ0 hA0 hA y0 y1⟩
    · have hA : w i * Real.exp (-M) = Real.exp (Real.log (w i) - M) := by rw [sub_eq_add_neg, Real.exp_add, Real.exp_log h0]
      by_cases hb75 : b - M ≤ -75
      · obtain ⟨y, hy, y0, y1⟩ := hsmall b hb75
        refine ⟨y, by rw [hb, hy], hnear0 hδ0 hA0 ?_ y0 y1⟩
        rw [hA]
        rw [abs_le] at e
        exact (Real.exp_le_exp.2 (by linarith [e.1])).trans e74
      · have hbM := hMle i b hb
        have hbd : |b - M| ≤ 75 := by rw [abs_le]; constructor <;> linarith
        obtain ⟨d, hd, ed⟩ := C.rdA (a := b - M) (x := b - M) (ε := 0) (K := 75) (by linarith) (by norm_num) (by simp)
        have hd80 : |d| ≤ 80 := by
          have : d = (d - (b - M)) + (b - M) := by ring
          rw [this]
          exact (abs_add_le _ _).trans (by linarith)
        have ed' : |d - (Real.log (w i) - M)| ≤ β + 76 * κ := by
          have : d - (Real.log (w i) - M) = (d - (b - M)) + (b - Real.log (w i)) := by ring
          rw [this]
          exact (abs_add_le _ _).trans (by linarith)
        obtain ⟨y, hy, wy⟩ := C.expA hd80 ed'
        refine ⟨y, ?_, ?_⟩
        · rw [hb, sub_fin]; simp only [Arith.r, hd, hy]
        · rw [hA]
          exact (wy.mono (by linarith) (Real.exp_pos _).le).near (by positivity)
  choose v hv wv using hex
  obtain ⟨h1, h2⟩ := sum_top hw hj
  have hS : ∑ i, w i * Real.exp (-M) = (∑ i, w i) * Real.exp (-M) := by rw [Finset.sum_mul]
  have rS : Rg 25 (∑ i, w i * Real.exp (-M)) := by
    rw [hS]
    constructor
    · refine le_trans (by norm_num) (hWM.1.trans (mul_le_mul_of_nonneg_right h1 (Real.exp_pos _).le))
    · calc (∑ i, w i) * Real.exp (-M) ≤ n * w j * Real.exp (-M) := mul_le_mul_of_nonneg_right h2 (Real.exp_pos _).le
        _ = n * (w j * Real.exp (-M)) := by ring
        _ ≤ 2 ^ 24 * 2 := mul_le_mul (by exact_mod_cast hn) hWM.2 (by linarith [hWM.1]) (by norm_num)
        _ = 2 ^ 25 := by norm_num
  have hSlo : 2⁻¹ ≤ ∑ i, w i * Real.exp (-M) := by
    rw [hS]; exact hWM.1.trans (mul_le_mul_of_nonneg_right h1 (Real.exp_pos _).le)
  have hlo : flLo ≤ 2⁻¹ ^ 126 := le_rfl
  obtain ⟨s, hs, ws⟩ := C.sumP hn (by linarith) (by positivity) hv (fun i => mul_nonneg (hw i) (Real.exp_pos _).le) wv t ht hD (by linarith)
    (by norm_num at hlo hSlo ⊢; linarith) (rS.2.trans (by norm_num))
  obtain ⟨z, hz, ez⟩ := C.logW rS (by norm_num) (by linarith) ws
  have hSp : 0 < ∑ i, w i := hj0.trans_le h1
  rw [hS, Real.log_mul hSp.ne' (Real.exp_pos _).ne', Real.log_exp, ← sub_eq_add_neg] at ez
  norm_num at ez
  have ez' : |z + M - Real.log (∑ i, w i)| ≤ β + 98 * κ + 2 * (κ * D) := by
    rw [show z + M - Real.log (∑ i, w i) = z - (Real.log (∑ i, w i) - M) by ring]
    refine ez.trans ?_
    linarith
  have hSl := sum_top_log hn hw hj hj0 hK
  norm_num at hSl
  obtain ⟨l, hl, el⟩ := C.rdA (K := K + 18) (by linarith) (by norm_num at hKbig ⊢; linarith) ez'
  refine ⟨l, ?_, el.trans ?_⟩
  · unfold Arith.logsumexp
    simp only [hM, isfinite_fin, if_true]
    rw [hs, hz, add_fin]
    exact hl
  · nlinarith

theorem encode_cases {x : ℝ} (h : x = 0 ∨ 0 < x) : (x = 0 ∧ encode true x = ninf) ∨ (0 < x ∧ encode true x = fin (Real.log x)) := by
  rcases h with h | h
  · left; exact ⟨h, by simp [encode, h]⟩
  · right; exact ⟨h, by simp [encode, F.log_fin h]⟩

theorem Peak.zero_or_pos {n : ℕ} {K : ℝ} {w : Fin n → ℝ} (h : Peak K w) (i : Fin n) : w i = 0 ∨ 0 < w i := (h.nonneg i).eq_or_lt.imp Eq.symm id

/-- rounding keeps a number below a bound of moderate size below it, up to the rounding error of the bound -/
theorem Arith.Contract.rd_le (C : f.Contract κ) {x B K : ℝ} (hx : x ≤ B) (hB : |B| ≤ K) (hK : K ≤ 2 ^ 90) : f.rd x = ninf ∨ ∃ y, f.rd x = fin y ∧ y ≤ B + κ * (3 + 3 * K) := by
  have κ0 := C.pos
  have hK0 : 0 ≤ K := (abs_nonneg _).trans hB
  have hκ : κ ≤ 1 / 4096 := C.small.trans (by norm_num)
  have hBl := abs_le.1 hB
  by_cases h1 : x < -flHi
  · rcases C.rd_over x h1 with h | ⟨y, h, hy⟩
    · exact Or.inl h
    · refine Or.inr ⟨y, h, ?_⟩
      have : 0 ≤ κ * (3 + 3 * K) := by positivity
      norm_num at hK hy
      linarith [hBl.1]
  · right
    have hhi : K ≤ flHi := hK.trans (by unfold flHi; norm_num)
    by_cases h2 : |x| ≤ 2 * K + 1
    · obtain ⟨y, h, hy⟩ := C.rd_abs (x := x) (by rw [abs_le]; constructor <;> linarith [hBl.2])
      refine ⟨y, h, ?_⟩
      rw [abs_le] at hy
      have := mul_le_mul_of_nonneg_left h2 κ0.le
      nlinarith [hy.2]
    · have hxn : x < -(2 * K + 1) := by
        by_contra hc
        exact h2 (abs_le.2 ⟨not_lt.1 hc, by linarith [hBl.2]⟩)
      have habs : |x| = -x := abs_of_neg (by linarith)
      obtain ⟨y, h, hy⟩ := C.rd_norm x (by rw [habs]; have := flLo_le_one; linarith) (by rw [habs]; linarith)
      refine ⟨y, h, ?_⟩
      rw [habs, abs_le] at hy
      have : 0 ≤ κ * (3 + 3 * K) := by positivity
      nlinarith [hy.2, hBl.1]

/-- the log estimate for one event -/
theorem row_log (C : f.Contract κ) {N D : ℕ} {T K : ℝ} (hT : Budget κ D T) (hN : N ≤ 2 ^ 24) {w : Fin N → ℝ} (hw : Peak K w) (hK : K * T ≤ 1 / 128)
    {t t2 : RTree N} (ht : t.Covers) (ht2 : t2.Covers) (hD : t.depth ≤ D) (hD2 : t2.depth ≤ D) :
    ∃ x y, (perEventRowR f t t2 (fun i => encode true (w i)) true).1 = fin x ∧ (perEventRowR f t t2 (fun i => encode true (w i)) true).2.1 = fin y ∧
      |x - Real.log (mean w)| ≤ (240 + 2 * K) * T ∧ |y - Real.log (kish w)| ≤ (700 + 8 * K) * T := by
  obtain ⟨q0, hTe, hT1, hT0⟩ := hT.q C.pos
  have κ0 := C.pos
  have hp := hw.pos
  have hK0 := hw.K_nonneg
  have hN1 := card_pos_of hp
  have hNr : (0:ℝ) < N := by exact_mod_cast hN1
  have hκT : κ ≤ T := by linarith
  have hκK : κ * K ≤ 1 / 128 := by
    have := mul_le_mul_of_nonneg_right hκT hK0
    linarith
  have hKbig : K ≤ 2 ^ 60 := by
    have h1 : 2⁻¹ ^ 50 * K ≤ κ * K := mul_le_mul_of_nonneg_right C.tiny hK0
    norm_num at h1 ⊢; linarith
  obtain ⟨hS, hQ⟩ := sum_pos_of hw.nonneg hp
  have rN := Rg.nat hN1 hN
  have hnat : f.rd N = fin N := C.rd_nat N hN
  obtain ⟨j, hj, hj0, hjK⟩ := hw.top
  obtain ⟨l, hl, el⟩ := C.lse hT hN hw.nonneg hj hj0 hjK (by linarith) (β := 0) (a := fun i => encode true (w i)) le_rfl (by norm_num)
    (fun i => (encode_cases (hw.zero_or_pos i)).imp (fun h => ⟨by rw [h.1]; positivity, Or.inl h.2⟩) fun h => ⟨h.1, _, h.2, by simp⟩) ht hD
  have hlj2 : Real.log (w j ^ 2) = 2 * Real.log (w j) := by rw [Real.log_pow]; push_cast; ring
  have hj2K : |Real.log (w j ^ 2)| ≤ 2 * K := by rw [hlj2, abs_mul, abs_two]; linarith
  have hl2 : 76.2 ≤ 110 * Real.log 2 ∧ 110 * Real.log 2 ≤ 76.3 := by
    have h1 := Real.log_two_gt_d9
    have h2 := Real.log_two_lt_d9
    constructor <;> norm_num <;> linarith
  norm_num at hl2
  obtain ⟨hlo2, hhi2⟩ := hl2
  have h2 : ∀ i, (w i ^ 2 ≤ 2⁻¹ ^ 110 * w j ^ 2 ∧ (f.r (2 * encode true (w i)) = ninf ∨ ∃ b, f.r (2 * encode true (w i)) = fin b ∧ b ≤ Real.log (w j ^ 2) - 76)) ∨
      (0 < w i ^ 2 ∧ ∃ b, f.r (2 * encode true (w i)) = fin b ∧ |b - Real.log (w i ^ 2)| ≤ κ * (79 + 2 * K)) := by
    intro i
    rcases encode_cases (hw.zero_or_pos i) with ⟨h0, h⟩ | ⟨h0, h⟩
    · left
      refine ⟨by rw [h0, zero_pow two_ne_zero]; positivity, Or.inl ?_⟩
      rw [h, ofNat_def, fin_mul_ninf, infOfSign_neg (by norm_num)]; rfl
    · have hr : f.r (2 * encode true (w i)) = f.rd (Real.log (w i ^ 2)) := by
        rw [h, ofNat_def, mul_fin, Arith.r_fin, Real.log_pow]; push_cast; rfl
      rw [hr]
      have hlt : Real.log (2⁻¹ ^ 110 * w j ^ 2) = Real.log (w j ^ 2) - 110 * Real.log 2 := by
        rw [Real.log_mul (by positivity) (by positivity), Real.log_pow, Real.log_inv]; push_cast; ring
      by_cases hs : w i ^ 2 ≤ 2⁻¹ ^ 110 * w j ^ 2
      · left
        refine ⟨hs, ?_⟩
        have h3 := Real.log_le_log (pow_pos h0 2) hs
        rw [hlt] at h3
        refine (C.rd_le (x := Real.log (w i ^ 2)) (B := Real.log (w j ^ 2) - 381 / 5) (K := 2 * K + 77) (by linarith) ?_ (by norm_num at hKbig ⊢; linarith)).imp id ?_
        · refine (abs_sub _ _).trans ?_
          norm_num; linarith
        · rintro ⟨y, hy, hy'⟩
          refine ⟨y, hy, hy'.trans ?_⟩
          norm_num
          nlinarith
      · right
        refine ⟨pow_pos h0 2, ?_⟩
        have h3 := Real.log_le_log (by positivity) (not_le.1 hs).le
        rw [hlt] at h3
        have h4 := Real.log_le_log (pow_pos h0 2) (pow_le_pow_left₀ h0.le (hj i) 2)
        have h5 : |Real.log (w i ^ 2)| ≤ 2 * K + 77 := by
          rw [abs_le] at hj2K ⊢
          constructor <;> linarith [hj2K.1, hj2K.2]
        obtain ⟨b, hb, eb⟩ := C.rdA (a := Real.log (w i ^ 2)) (x := Real.log (w i ^ 2)) (ε := 0) (K := 2 * K + 77) (by linarith) (by norm_num at hKbig ⊢; linarith) (by simp)
        exact ⟨b, hb, eb.trans (by nlinarith)⟩
  obtain ⟨l2, hl2, el2⟩ := C.lse hT hN (w := fun i => w i ^ 2) (fun i => sq_nonneg _) (fun i => pow_le_pow_left₀ (hw.nonneg i) (hj i) 2) (pow_pos hj0 2) hj2K (by nlinarith)
    (β := κ * (79 + 2 * K)) (by positivity) (by nlinarith) h2 ht2 hD2
  -- log N
  obtain ⟨ln, hln, eln⟩ := C.logW rN (by norm_num) (ε := 0) zero_le_one (Within.refl' le_rfl hNr.le)
  norm_num at eln
  have hmean := hw.mean_log hN
  norm_num at hmean
  have hlogm : Real.log (mean w) = Real.log (∑ i, w i) - Real.log N := by unfold mean; rw [Real.log_div hS.ne' hNr.ne']
  have rk := kish_Rg hN hw.nonneg hp
  have hlogk : Real.log (kish w) = 2 * Real.log (∑ i, w i) - Real.log (∑ i, w i ^ 2) := by
    unfold kish; rw [Real.log_div (pow_pos hS 2).ne' hQ.ne', Real.log_pow]; push_cast; ring
  have e1 : |l - ln - Real.log (mean w)| ≤ κ * (150 + K) + 2 * (κ * D) := by
    rw [hlogm, show l - ln - (Real.log (∑ i, w i) - Real.log N) = (l - Real.log (∑ i, w i)) - (ln - Real.log N) by ring]
    refine (abs_sub _ _).trans ?_
    linarith
  obtain ⟨x, hx, ex⟩ := C.rdA (K := K + 18) (by linarith) (by norm_num at hKbig ⊢; linarith) e1
  have hSl := hw.sum_log hN
  norm_num at hSl
  have e2 : |2 * l - 2 * Real.log (∑ i, w i)| ≤ κ * (260 + 2 * K) + 4 * (κ * D) := by
    rw [← mul_sub, abs_mul, abs_two]; linarith
  obtain ⟨l', hl', el'⟩ := C.rdA (K := 2 * K + 35) (by
    rw [abs_mul, abs_two]; linarith) (by norm_num at hKbig ⊢; linarith) e2
  have e3 : |l' - l2 - Real.log (kish w)| ≤ κ * (510 + 8 * K) + 6 * (κ * D) := by
    rw [hlogk, show l' - l2 - (2 * Real.log (∑ i, w i) - Real.log (∑ i, w i ^ 2)) = (l' - 2 * Real.log (∑ i, w i)) - (l2 - Real.log (∑ i, w i ^ 2)) by ring]
    refine (abs_sub _ _).trans ?_
    linarith
  have hkl := rk.log
  norm_num at hkl
  obtain ⟨y, hy, ey⟩ := C.rdA (K := 18) (by linarith) (by norm_num) e3
  have hKT := mul_le_mul_of_nonneg_right hκT hK0
  refine ⟨x, y, ?_, ?_, ?_, ?_⟩
  · simp only [perEventRowR, if_true, hl, hnat, hln, sub_fin]
    exact hx
  · simp only [perEventRowR, if_true]
    rw [hl, hl2, ofNat_def, mul_fin, Arith.r_fin, hl', sub_fin, Arith.r_fin, hy]
  · refine ex.trans ?_
    linarith
  · refine ey.trans ?_
    linarith

theorem row_est (C : f.Contract κ) {N D : ℕ} {T K : ℝ} (hT : Budget κ D T) (hN : N ≤ 2 ^ 24) {w : Fin N → ℝ} (hw : Peak K w) (hK : K * T ≤ 1 / 128)
    {t t2 : RTree N} (ht : t.Covers) (ht2 : t2.Covers) (hD : t.depth ≤ D) (hD2 : t2.depth ≤ D) (lg : Bool) (hlg : lg = false → K ≤ 13) :
    ∃ x y, (perEventRowR f t t2 (fun i => encode lg (w i)) lg).1 = fin x ∧ (perEventRowR f t t2 (fun i => encode lg (w i)) lg).2.1 = fin y ∧
      |x - Real.log (mean w)| ≤ (240 + 2 * K) * T ∧ |y - Real.log (kish w)| ≤ (700 + 8 * K) * T := by
  cases lg with
  | true => exact row_log C hT hN hw hK ht ht2 hD hD2
  | false =>
    obtain ⟨x, y, h1, h2, h3, h4⟩ := row_linear C hT hN hw (hlg rfl) ht ht2 hD hD2
    obtain ⟨q0, hTe, hT1, hT0⟩ := hT.q C.pos
    have := mul_nonneg hw.K_nonneg hT0.le
    exact ⟨x, y, h1, h2, by linarith, by linarith⟩

/-! ### injections -/

/-- a difference loses little when the second number is at most half the first -/
theorem Within.sub {δ a b a' b' : ℝ} (hδ0 : 0 ≤ δ) (hδ : δ ≤ 1 / 8) (hb : 0 ≤ b) (hab : 2 * b ≤ a) (wa : Within δ a a') (wb : Within δ b b') :
    Within (4 * δ) (a - b) (a' - b') := by
  set x := Real.exp δ with hx
  set y := Real.exp (-δ) with hy
  have hx1 : 1 ≤ x := Real.one_le_exp hδ0
  have hxy : x * y = 1 := by rw [hx, hy, ← Real.exp_add]; simp
  have hy1 : y ≤ 1 := Real.exp_le_one_iff.2 (by linarith)
  have hy0 : 7 / 8 ≤ y := by have := Real.add_one_le_exp (-δ); rw [hy]; linarith
  have e4 : Real.exp (4 * δ) = x ^ 4 := by rw [hx, ← Real.exp_nat_mul]; norm_num
  have e4' : Real.exp (-(4 * δ)) = y ^ 4 := by rw [hy, ← Real.exp_nat_mul]; congr 1; push_cast; ring
  unfold Within at *
  rw [← hx, ← hy] at wa wb
  rw [e4, e4']
  constructor
  · -- y a - x b ≥ y⁴ (a - b)
    have key : 0 ≤ 2 * y ^ 2 - y ^ 5 - 1 := by
      have : 2 * y ^ 2 - y ^ 5 - 1 = (1 - y) * (y ^ 4 + y ^ 3 + y ^ 2 - y - 1) := by ring
      rw [this]
      refine mul_nonneg (by linarith) ?_
      have h2 : (7 / 8) ^ 2 ≤ y ^ 2 := pow_le_pow_left₀ (by norm_num) hy0 2
      have h3 : (7 / 8) ^ 3 ≤ y ^ 3 := pow_le_pow_left₀ (by norm_num) hy0 3
      have h4 : (7 / 8) ^ 4 ≤ y ^ 4 := pow_le_pow_left₀ (by norm_num) hy0 4
      norm_num at h2 h3 h4
      linarith
    have h1 : y ^ 4 * (a - b) ≤ y * a - x * b := by
      have h5 : 0 ≤ y * (y * a - x * b - y ^ 4 * (a - b)) := by
        have : y * (y * a - x * b - y ^ 4 * (a - b)) = (y ^ 2 - y ^ 5) * (a - 2 * b) + (2 * y ^ 2 - y ^ 5 - 1) * b := by
          linear_combination (-b) * hxy
        rw [this]
        have h6 : 0 ≤ y ^ 2 - y ^ 5 := by
          have : y ^ 5 ≤ y ^ 2 := pow_le_pow_of_le_one (by linarith) hy1 (by norm_num)
          linarith
        exact add_nonneg (mul_nonneg h6 (by linarith)) (mul_nonneg key hb)
      have := nonneg_of_mul_nonneg_right h5 (by linarith)
      linarith
    linarith [wa.1, wb.2]
  · have key : 0 ≤ x ^ 5 - 2 * x ^ 2 + 1 := by
      have : x ^ 5 - 2 * x ^ 2 + 1 = (x - 1) * (x ^ 4 + x ^ 3 + x ^ 2 - x - 1) := by ring
      rw [this]
      refine mul_nonneg (by linarith) ?_
      have h4 : 1 ≤ x ^ 4 := one_le_pow₀ hx1
      have h3 : x ≤ x ^ 3 := le_self_pow₀ hx1 (by norm_num)
      have h2 : 0 ≤ x ^ 2 := by positivity
      linarith
    have h1 : x * a - y * b ≤ x ^ 4 * (a - b) := by
      have h5 : 0 ≤ x * (x ^ 4 * (a - b) - (x * a - y * b)) := by
        have : x * (x ^ 4 * (a - b) - (x * a - y * b)) = (x ^ 5 - x ^ 2) * (a - 2 * b) + (x ^ 5 - 2 * x ^ 2 + 1) * b := by
          linear_combination b * hxy
        rw [this]
        have h6 : 0 ≤ x ^ 5 - x ^ 2 := by
          have : x ^ 2 ≤ x ^ 5 := pow_le_pow_right₀ hx1 (by norm_num)
          linarith
        exact add_nonneg (mul_nonneg h6 (by linarith)) (mul_nonneg key hb)
      have := nonneg_of_mul_nonneg_right h5 (by linarith)
      linarith
    linarith [wa.2, wb.1]

theorem relVar_kish {M n : ℕ} (hMn : 2 * M ≤ n) {w : Fin M → ℝ} (hw : ∀ i, 0 ≤ w i) (hp : ∃ i, 0 < w i) :
    1 / kish w ≤ 2 * relVar w n ∧ relVar w n ≤ 1 / kish w ∧ 0 < relVar w n := by
  obtain ⟨hS, hQ⟩ := sum_pos_of hw hp
  have hk := (kish_bounds w hw hp).2.1
  have hM : (0:ℝ) < M := by exact_mod_cast card_pos_of hp
  have hn : (2:ℝ) * M ≤ n := by exact_mod_cast hMn
  have hk0 : 0 < kish w := div_pos (pow_pos hS 2) hQ
  have e : relVar w n = 1 / kish w - 1 / n := by unfold relVar kish; rw [one_div_div]
  have h1 : (1:ℝ) / n ≤ 1 / (2 * M) := one_div_le_one_div_of_le (by linarith) hn
  have h2 : 1 / (M:ℝ) ≤ 1 / kish w := one_div_le_one_div_of_le hk0 hk
  have h3 : (1:ℝ) / (2 * M) = 1 / M / 2 := by field_simp
  have h4 : (0:ℝ) < 1 / n := one_div_pos.2 (by linarith)
  have h5 : 0 < 1 / kish w := by positivity
  rw [e]
  refine ⟨by linarith, by linarith, by linarith⟩

/-- the part of `detection_efficiency` common to the two paths: the variance and the effective number from the estimates of `mu` and of the sum of squares -/
theorem neff_est (C : f.Contract κ) {M n D : ℕ} {T : ℝ} (hT : Budget κ D T) (hM : M ≤ 2 ^ 24) (hn : n ≤ 2 ^ 27) (hMn : 2 * M ≤ n) {w : Fin M → ℝ} {K : ℝ} (hw : Peak K w) (hK : K ≤ 13)
    {mu s2 l : ℝ} (hmu : Within (241 * T) ((∑ i, w i) / n) mu) (hs2 : Within (8 * T) (∑ i, w i ^ 2) s2)
    (hl : |l - Real.log ((∑ i, w i) / n)| ≤ 240 * T) :
    ∃ v y, f.r (f.r (fin s2 / f.r (sq (f.rd n))) - f.r (f.r (sq (fin mu)) / f.rd n)) = fin v ∧
      f.r (f.r (2 * fin l) - f.log (fin v)) = fin y ∧ |y - -Real.log (relVar w n)| ≤ 2800 * T := by
  obtain ⟨q0, hTe, hT1, hT0⟩ := hT.q C.pos
  have κ0 := C.pos
  have hp := hw.pos
  obtain ⟨hS, hQ⟩ := sum_pos_of hw.nonneg hp
  obtain ⟨s1, s2'⟩ := hw.sum_Rg hM hK
  obtain ⟨q1, q2⟩ := hw.sumsq_Rg hM hK
  have hM1 := card_pos_of hp
  have hn1 : 1 ≤ n := by omega
  have hn0 : (0:ℝ) < n := by exact_mod_cast hn1
  have rn := Rg.nat hn1 hn
  have rmu : Rg 47 ((∑ i, w i) / n) := by
    constructor
    · rw [le_div_iff₀ hn0]
      refine le_trans (mul_le_mul_of_nonneg_left rn.2 (by positivity)) (le_trans ?_ s1)
      norm_num
    · rw [div_le_iff₀ hn0]
      refine s2'.trans ?_
      have : (1:ℝ) ≤ n := by exact_mod_cast hn1
      norm_num; linarith
  have rQ : Rg 64 (∑ i, w i ^ 2) := ⟨le_trans (by norm_num) q1, q2.trans (by norm_num)⟩
  obtain ⟨n', hn', wn'⟩ := C.rdW rn (by norm_num) (ε := 0) zero_le_one (Within.refl' le_rfl hn0.le)
  obtain ⟨n2, hn2, wn2⟩ := C.sqW (by linarith) (Or.inr rn) (by norm_num) wn'
  have rn2 : Rg 54 ((n:ℝ) ^ 2) := by rw [pow_two]; exact rn.mul rn
  obtain ⟨A, hA, wA⟩ := C.divW hQ (pow_pos hn0 2) (rQ.div rn2) (by norm_num) (by linarith) hs2 wn2
  obtain ⟨m2, hm2, wm2⟩ := C.sqW (by linarith) (Or.inr rmu) (by norm_num) hmu
  have rm2 : Rg 94 (((∑ i, w i) / n) ^ 2) := by rw [pow_two]; exact rmu.mul rmu
  obtain ⟨B, hB, wB⟩ := C.divW rm2.pos hn0 (rm2.div rn) (by norm_num) (by linarith) wm2 wn'
  have eAB : (∑ i, w i ^ 2) / (n:ℝ) ^ 2 - ((∑ i, w i) / n) ^ 2 / n = ((∑ i, w i) / n) ^ 2 * relVar w n := by
    unfold relVar; field_simp
  obtain ⟨hk1, hk2, hk3⟩ := relVar_kish hMn hw.nonneg hp
  have eA : (∑ i, w i ^ 2) / (n:ℝ) ^ 2 = ((∑ i, w i) / n) ^ 2 * (1 / kish w) := by unfold kish; field_simp
  have hAB : 2 * (((∑ i, w i) / n) ^ 2 / n) ≤ (∑ i, w i ^ 2) / (n:ℝ) ^ 2 := by
    have : ((∑ i, w i) / n) ^ 2 * (1 / kish w) ≤ ((∑ i, w i) / n) ^ 2 * (2 * relVar w n) := mul_le_mul_of_nonneg_left hk1 (by positivity)
    rw [← eA] at this
    linarith
  have w1 : Within (506 * T) ((∑ i, w i ^ 2) / (n:ℝ) ^ 2) A := wA.mono (by linarith) (by positivity)
  have w2 : Within (506 * T) (((∑ i, w i) / n) ^ 2 / n) B := wB.mono (by linarith) (by positivity)
  have w3 := Within.sub (by linarith) (by linarith) (by positivity) hAB w1 w2
  rw [eAB] at w3
  have rk := kish_Rg hM hw.nonneg hp
  have rrel : Rg 25 (relVar w n) := by
    have h := rk.inv
    rw [← one_div] at h
    constructor
    · have : (2⁻¹:ℝ) ^ 25 = 2⁻¹ ^ 24 / 2 := by norm_num
      rw [this]; linarith [h.1]
    · exact hk2.trans (h.2.trans (by norm_num))
  have rvar : Rg 119 (((∑ i, w i) / n) ^ 2 * relVar w n) := rm2.mul rrel
  obtain ⟨v, hv, wv⟩ := C.rdW rvar (by norm_num) (by linarith) w3
  obtain ⟨lv, hlv, elv⟩ := C.logW rvar (by norm_num) (by linarith) wv
  have hmul := rmu.log
  norm_num at hmul elv
  have e2 : |2 * l - 2 * Real.log ((∑ i, w i) / n)| ≤ 480 * T := by rw [← mul_sub, abs_mul, abs_two]; linarith
  obtain ⟨l', hl', el'⟩ := C.rdA (K := 67) (by rw [abs_mul, abs_two]; linarith) (by norm_num) e2
  have elog : Real.log (((∑ i, w i) / n) ^ 2 * relVar w n) = 2 * Real.log ((∑ i, w i) / n) + Real.log (relVar w n) := by
    rw [Real.log_mul rm2.pos.ne' hk3.ne', Real.log_pow]; push_cast; ring
  rw [elog] at elv
  have e3 : |l' - lv - -Real.log (relVar w n)| ≤ 2750 * T := by
    rw [show l' - lv - -Real.log (relVar w n) = (l' - 2 * Real.log ((∑ i, w i) / n)) - (lv - (2 * Real.log ((∑ i, w i) / n) + Real.log (relVar w n))) by ring]
    refine (abs_sub _ _).trans ?_
    linarith
  have hrl := rrel.log
  norm_num at hrl
  obtain ⟨y, hy, ey⟩ := C.rdA (K := 19) (by rw [abs_neg]; linarith) (by norm_num) e3
  refine ⟨v, y, ?_, ?_, ?_⟩
  · rw [hn', hn2, hA, hm2, hB, sub_fin, Arith.r_fin, hv]
  · rw [hlv, ofNat_def, mul_fin, Arith.r_fin, hl', sub_fin, Arith.r_fin, hy]
  · refine ey.trans ?_
    linarith

/-- the detection efficiency and its effective number, either path -/
theorem inj_est (C : f.Contract κ) {M n D : ℕ} {T : ℝ} (hT : Budget κ D T) (hM : M ≤ 2 ^ 24) (hn : n ≤ 2 ^ 27) (hMn : 2 * M ≤ n) {w : Fin M → ℝ} {K : ℝ} (hw : Peak K w) (hK : K ≤ 13)
    {t t2 : RTree M} (ht : t.Covers) (ht2 : t2.Covers) (hD : t.depth ≤ D) (hD2 : t2.depth ≤ D) (lg : Bool) :
    ∃ l y, (detectionEfficiencyR f t t2 (fun i => encode lg (w i)) n lg).1 = fin l ∧ (detectionEfficiencyR f t t2 (fun i => encode lg (w i)) n lg).2.1 = fin y ∧
      |l - Real.log ((∑ i, w i) / n)| ≤ 240 * T ∧ |y - -Real.log (relVar w n)| ≤ 2800 * T := by
  obtain ⟨q0, hTe, hT1, hT0⟩ := hT.q C.pos
  have κ0 := C.pos
  have hp := hw.pos
  obtain ⟨hS, hQ⟩ := sum_pos_of hw.nonneg hp
  obtain ⟨s1, s2'⟩ := hw.sum_Rg hM hK
  obtain ⟨q1, q2⟩ := hw.sumsq_Rg hM hK
  have hM1 := card_pos_of hp
  have hn1 : 1 ≤ n := by omega
  have hn0 : (0:ℝ) < n := by exact_mod_cast hn1
  have rn := Rg.nat hn1 hn
  have rS : Rg 44 (∑ i, w i) := ⟨le_trans (by norm_num) s1, s2'.trans (by norm_num)⟩
  obtain ⟨b1, -⟩ := hw.bounds hK
  have hlo : flLo ≤ 2⁻¹ ^ 126 := le_rfl
  obtain ⟨n', hn', wn'⟩ := C.rdW rn (by norm_num) (ε := 0) zero_le_one (Within.refl' le_rfl hn0.le)
  have rmu := rS.div rn
  cases lg with
  | false =>
    obtain ⟨s, hs, ws⟩ := C.sumP hM (a := fun i => encode false (w i)) (δ := 0) (η := 0) le_rfl le_rfl (fun i => rfl) hw.nonneg (fun i => (Within.refl' le_rfl (hw.nonneg i)).near le_rfl) t ht hD
      (by linarith) (by norm_num at hlo s1 ⊢; linarith) (s2'.trans (by norm_num))
    obtain ⟨mu, hmu, wmu⟩ := C.divW hS hn0 rmu (by norm_num) (by linarith) ws wn'
    obtain ⟨l, hl, el⟩ := C.logW rmu (by norm_num) (by linarith) wmu
    have hsq : ∀ i, ∃ y, f.r (sq (encode false (w i))) = fin y ∧ Near (2 * κ) flLo (w i ^ 2) y := fun i => by
      have h2 : w i ^ 2 ≤ (2 ^ 19) ^ 2 := pow_le_pow_left₀ (hw.nonneg i) (b1 i) 2
      obtain ⟨y, hy, ny⟩ := C.rd_near (δ := 0) (η := 0) (a := w i ^ 2) (x := w i ^ 2) le_rfl le_rfl (sq_nonneg _) (by rw [abs_of_nonneg (sq_nonneg _)]; unfold flHi; norm_num at h2 ⊢; linarith)
        ((Within.refl' le_rfl (sq_nonneg _)).near le_rfl)
      refine ⟨y, by simp only [encode, Bool.false_eq_true, if_false]; rw [sq_fin, Arith.r_fin, ← pow_two, hy], ?_⟩
      simpa using ny
    choose v hv wv using hsq
    obtain ⟨s2, hs2, ws2⟩ := C.sumP hM (by linarith) flLo_pos.le hv (fun i => sq_nonneg _) wv t2 ht2 hD2 (by linarith) (by norm_num at hlo q1 ⊢; linarith) (q2.trans (by norm_num))
    norm_num at el
    have el' : |l - Real.log ((∑ i, w i) / n)| ≤ 240 * T := el.trans (by linarith)
    obtain ⟨v', y, hv', hy, ey⟩ := neff_est C hT hM hn hMn hw hK (wmu.mono (by linarith) (by positivity)) (ws2.mono (by linarith) hQ.le) el'
    refine ⟨l, y, ?_, ?_, el', ey⟩
    · simp only [detectionEfficiencyR, Bool.false_eq_true, if_false]
      rw [hs, hn', hmu, hl]
    · rw [hn'] at hv'
      simp only [detectionEfficiencyR, Bool.false_eq_true, if_false]
      rw [hs, hn', hmu, hl, hs2, hv', hy]
  | true =>
    obtain ⟨j, hj, hj0, hjK⟩ := hw.top
    obtain ⟨l0, hl0, el0⟩ := C.lse hT hM hw.nonneg hj hj0 (hjK.trans hK) (by linarith) (β := 0) (a := fun i => encode true (w i)) le_rfl (by norm_num)
      (fun i => (encode_cases (hw.zero_or_pos i)).imp (fun h => ⟨by rw [h.1]; positivity, Or.inl h.2⟩) fun h => ⟨h.1, _, h.2, by simp⟩) ht hD
    obtain ⟨ln, hln, eln⟩ := C.logW rn (by norm_num) (by linarith) wn'
    norm_num at el0 eln
    have e1 : |l0 - ln - Real.log ((∑ i, w i) / n)| ≤ 170 * κ + 2 * (κ * D) := by
      rw [Real.log_div hS.ne' hn0.ne', show l0 - ln - (Real.log (∑ i, w i) - Real.log n) = (l0 - Real.log (∑ i, w i)) - (ln - Real.log n) by ring]
      refine (abs_sub _ _).trans ?_
      linarith
    have hml := rmu.log
    norm_num at hml
    obtain ⟨l, hl, el⟩ := C.rdA (K := 51) (by linarith) (by norm_num) e1
    have el' : |l - Real.log ((∑ i, w i) / n)| ≤ 240 * T := el.trans (by linarith)
    have hl80 : |l| ≤ 80 := by
      have : l = (l - Real.log ((∑ i, w i) / n)) + Real.log ((∑ i, w i) / n) := by ring
      rw [this]; exact (abs_add_le _ _).trans (by linarith)
    obtain ⟨mu, hmu, wmu⟩ := C.expA hl80 el'
    rw [Real.exp_log rmu.pos] at wmu
    have hsq : ∀ i, ∃ y, f.r (sq (f.exp (encode true (w i)))) = fin y ∧ Near (4 * κ) flLo (w i ^ 2) y := fun i => by
      have h2 : w i ^ 2 ≤ (2 ^ 19) ^ 2 := pow_le_pow_left₀ (hw.nonneg i) (b1 i) 2
      have hlo0 := flLo_pos
      rcases encode_cases (hw.zero_or_pos i) with ⟨h0, h⟩ | ⟨h0, h⟩
      · refine ⟨0, by rw [h, C.exp_ninf]; simp [Arith.r, C.rd_zero], ?_⟩
        rw [h0]
        exact ⟨by simp; exact hlo0.le, by simp; exact hlo0.le⟩
      · by_cases hs : Real.log (w i) < -80
        · obtain ⟨y, hy, y0, y1⟩ := C.exp_small _ hs
          refine ⟨0, ?_, ?_⟩
          · rw [h, hy, sq_fin, Arith.r_fin]
            refine C.rd_under _ ?_
            rw [abs_of_nonneg (mul_nonneg y0 y0)]
            exact (mul_le_mul y1 y1 y0 (by positivity)).trans_lt (by norm_num)
          · have h3 : w i ≤ 2⁻¹ ^ 80 := by
              rw [← Real.exp_log h0]
              refine (Real.exp_le_exp.2 hs.le).trans ?_
              have : Real.exp (-80) = (Real.exp 1 ^ 80)⁻¹ := by rw [← Real.exp_nat_mul, ← Real.exp_neg]; norm_num
              rw [this, inv_pow]
              exact inv_anti₀ (by positivity) (pow_le_pow_left₀ (by norm_num) (by have := Real.exp_one_gt_d9; linarith) 80)
            have h4 : w i ^ 2 ≤ flLo := (pow_le_pow_left₀ h0.le h3 2).trans (by unfold flLo; norm_num)
            have e1 : Real.exp (-(4 * κ)) * w i ^ 2 ≤ 1 * w i ^ 2 := mul_le_mul_of_nonneg_right (Real.exp_le_one_iff.2 (by linarith)) (sq_nonneg _)
            have e2 : 0 ≤ Real.exp (4 * κ) * w i ^ 2 := by positivity
            exact ⟨by linarith, by linarith⟩
        · have hl1 : Real.log (w i) ≤ 80 := by
            refine (Real.log_le_log h0 (b1 i)).trans ?_
            rw [Real.log_pow]
            have := Real.log_two_lt_d9
            push_cast; linarith
          obtain ⟨x, hx, wx⟩ := C.expA (a := Real.log (w i)) (x := Real.log (w i)) (ε := 0) (by rw [abs_le]; exact ⟨not_lt.1 hs, hl1⟩) (by simp)
          rw [Real.exp_log h0, zero_add] at wx
          have wx2 := wx.sq h0.le
          have hx3 := wx2.le_three (by linarith) (sq_nonneg _)
          obtain ⟨y, hy, ny⟩ := C.rd_near (δ := 2 * κ) (η := 0) (by linarith) le_rfl (sq_nonneg _) (by rw [abs_of_nonneg (sq_nonneg _)]; unfold flHi; norm_num at h2 ⊢; linarith)
            (wx2.near le_rfl)
          refine ⟨y, by rw [h, hx, sq_fin, Arith.r_fin, ← pow_two, hy], ?_⟩
          have := ny.mono (δ' := 4 * κ) (η' := flLo) (by linarith) (by linarith) (sq_nonneg _)
          exact this
    choose v hv wv using hsq
    obtain ⟨s2, hs2, ws2⟩ := C.sumP hM (by linarith) flLo_pos.le hv (fun i => sq_nonneg _) wv t2 ht2 hD2 (by linarith) (by norm_num at hlo q1 ⊢; linarith) (q2.trans (by norm_num))
    obtain ⟨v', y, hv', hy, ey⟩ := neff_est C hT hM hn hMn hw hK (wmu.mono (by linarith) rmu.pos.le) (ws2.mono (by linarith) hQ.le) el'
    refine ⟨l, y, ?_, ?_, el', ey⟩
    · simp only [detectionEfficiencyR, if_true]
      rw [hl0, hn', hln, sub_fin, Arith.r_fin, hl]
    · rw [hn'] at hv'
      simp only [detectionEfficiencyR, if_true]
      rw [hl0, hn', hln, sub_fin, Arith.r_fin, hl, hmu, hs2, hv', hy]

end GW
end
