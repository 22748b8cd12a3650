import Verif.Model.Rounding
import Verif.Props.LikelihoodSmooth
import Mathlib.Data.Int.Log
import Mathlib.Algebra.Order.Round

/-! # The contract of a floating-point arithmetic, sums in any order, and IEEE single precision as an instance (used by C133 and C134) -/

open Finset
noncomputable section
open Classical
namespace GW
open F

/-- smallest normal number of single precision -/
def flLo : ℝ := 2⁻¹ ^ 126
/-- a power of two at which single precision has not yet overflowed -/
def flHi : ℝ := 2 ^ 127

/-- What is used of the rounding function and of the library, with unit round-off and library error at most `κ`: results in the normal range have relative error `κ`,
smaller ones (gradual underflow, or flush to zero) lose at most the smallest normal number, results below `2⁻¹⁵⁰` become zero, very negative ones stay very negative or become `-inf`, integers up to `2²⁴` are exact,
adding something small to the largest number does not change it; `exp` and `log` are accurate in the normal range, `exp` is small below it, and both have the usual special values. -/
structure Arith.Contract (f : Arith) (κ : ℝ) : Prop where
  pos : 0 < κ
  small : κ ≤ 2⁻¹ ^ 12
  tiny : 2⁻¹ ^ 50 ≤ κ
  rd_zero : f.rd 0 = fin 0
  rd_norm : ∀ x : ℝ, flLo ≤ |x| → |x| ≤ flHi → ∃ y, f.rd x = fin y ∧ |y - x| ≤ κ * |x|
  rd_sub : ∀ x : ℝ, |x| < flLo → ∃ y, f.rd x = fin y ∧ |y - x| ≤ flLo
  rd_under : ∀ x : ℝ, |x| < 2⁻¹ ^ 150 → f.rd x = fin 0
  rd_over : ∀ x : ℝ, x < -flHi → f.rd x = ninf ∨ ∃ y, f.rd x = fin y ∧ y ≤ -2 ^ 100
  rd_nat : ∀ n : ℕ, n ≤ 2 ^ 24 → f.rd n = fin n
  rd_big : ∀ x : ℝ, |x| ≤ 2 ^ 100 → f.rd (-BIG + x) = fin (-BIG)
  exp_norm : ∀ x : ℝ, |x| ≤ 80 → ∃ y, f.exp (fin x) = fin y ∧ Within κ (Real.exp x) y
  exp_small : ∀ x : ℝ, x < -80 → ∃ y, f.exp (fin x) = fin y ∧ 0 ≤ y ∧ y ≤ 2⁻¹ ^ 110
  exp_pinf : f.exp pinf = pinf
  exp_ninf : f.exp ninf = fin 0
  log_norm : ∀ x : ℝ, flLo ≤ x → x ≤ flHi → ∃ y, f.log (fin x) = fin y ∧ |y - Real.log x| ≤ κ * (1 + |Real.log x|)
  log_zero : f.log (fin 0) = ninf
  log_nan : f.log nan = nan

theorem flLo_pos : 0 < flLo := by unfold flLo; positivity
theorem flLo_le_one : flLo ≤ 1 := by unfold flLo; norm_num
theorem flHi_one : 1 ≤ flHi := by unfold flHi; norm_num

/-! ### `Within` -/

theorem Within.refl' {ε a : ℝ} (hε : 0 ≤ ε) (ha : 0 ≤ a) : Within ε a a :=
  ⟨mul_le_of_le_one_left ha (Real.exp_le_one_iff.2 (by linarith)), le_mul_of_one_le_left ha (Real.one_le_exp hε)⟩

theorem Within.mono {ε δ a b : ℝ} (hεδ : ε ≤ δ) (ha : 0 ≤ a) (h : Within ε a b) : Within δ a b :=
  ⟨(mul_le_mul_of_nonneg_right (Real.exp_le_exp.2 (by linarith)) ha).trans h.1,
    h.2.trans (mul_le_mul_of_nonneg_right (Real.exp_le_exp.2 hεδ) ha)⟩

theorem Within.trans {ε δ a b c : ℝ} (h : Within ε a b) (h' : Within δ b c) : Within (ε + δ) a c := by
  constructor
  · calc Real.exp (-(ε + δ)) * a = Real.exp (-δ) * (Real.exp (-ε) * a) := by
          rw [← mul_assoc, ← Real.exp_add]; congr 2; ring
      _ ≤ Real.exp (-δ) * b := mul_le_mul_of_nonneg_left h.1 (Real.exp_pos _).le
      _ ≤ c := h'.1
  · calc c ≤ Real.exp δ * b := h'.2
      _ ≤ Real.exp δ * (Real.exp ε * a) := mul_le_mul_of_nonneg_left h.2 (Real.exp_pos _).le
      _ = Real.exp (ε + δ) * a := by rw [← mul_assoc, ← Real.exp_add]; congr 2; ring

theorem Within.add {ε a b c d : ℝ} (h : Within ε a b) (h' : Within ε c d) : Within ε (a + c) (b + d) :=
  ⟨by rw [mul_add]; exact add_le_add h.1 h'.1, by rw [mul_add]; exact add_le_add h.2 h'.2⟩

theorem Within.mul_right {ε a b c : ℝ} (hc : 0 ≤ c) (h : Within ε a b) : Within ε (a * c) (b * c) :=
  ⟨by rw [← mul_assoc]; exact mul_le_mul_of_nonneg_right h.1 hc, by rw [← mul_assoc]; exact mul_le_mul_of_nonneg_right h.2 hc⟩

theorem Within.div_right {ε a b c : ℝ} (hc : 0 ≤ c) (h : Within ε a b) : Within ε (a / c) (b / c) := by
  simp only [div_eq_mul_inv]; exact h.mul_right (inv_nonneg.2 hc)

theorem Within.of_abs_log {ε x y : ℝ} (h : |y - x| ≤ ε) : Within ε (Real.exp x) (Real.exp y) := by
  rw [abs_le] at h
  constructor
  · rw [← Real.exp_add]; exact Real.exp_le_exp.2 (by linarith)
  · rw [← Real.exp_add]; exact Real.exp_le_exp.2 (by linarith)

/-- a factor `exp ε` with `ε ≤ 1` is less than 3 -/
theorem Within.le_three {ε a b : ℝ} (hε : ε ≤ 1) (ha : 0 ≤ a) (h : Within ε a b) : b ≤ 3 * a := by
  refine h.2.trans (mul_le_mul_of_nonneg_right ?_ ha)
  exact (Real.exp_le_exp.2 hε).trans (by have := Real.exp_one_lt_d9; linarith)

theorem Within.third_le {ε a b : ℝ} (hε : ε ≤ 1) (ha : 0 ≤ a) (h : Within ε a b) : a / 3 ≤ b := by
  refine le_trans ?_ h.1
  have h1 : Real.exp ε ≤ 3 := (Real.exp_le_exp.2 hε).trans (by have := Real.exp_one_lt_d9; linarith)
  rw [Real.exp_neg, div_eq_inv_mul]
  exact mul_le_mul_of_nonneg_right (inv_anti₀ (Real.exp_pos _) h1) ha

/-- a relative error `κ ≤ 1/2` is a factor `exp (2 κ)` -/
theorem within_of_rel {κ x y : ℝ} (hκ0 : 0 ≤ κ) (hκ : κ ≤ 1 / 2) (hx : 0 ≤ x) (h : |y - x| ≤ κ * |x|) : Within (2 * κ) x y := by
  rw [abs_of_nonneg hx, abs_le] at h
  constructor
  · have h1 : Real.exp (-(2 * κ)) ≤ 1 - κ := by
      rw [Real.exp_neg]
      have h2 : 1 + 2 * κ ≤ Real.exp (2 * κ) := by have := Real.add_one_le_exp (2 * κ); linarith
      rw [inv_le_comm₀ (Real.exp_pos _) (by linarith)]
      refine le_trans ?_ h2
      rw [inv_le_iff_one_le_mul₀ (by linarith)]
      nlinarith
    nlinarith
  · have h1 : 1 + κ ≤ Real.exp (2 * κ) := by have := Real.add_one_le_exp (2 * κ); linarith
    nlinarith

/-! ### one rounding -/

variable {f : Arith} {κ : ℝ}

theorem Arith.Contract.le_half (C : f.Contract κ) : κ ≤ 1 / 2 := C.small.trans (by norm_num)

theorem Arith.Contract.rd_within (C : f.Contract κ) {x : ℝ} (h0 : flLo ≤ x) (h1 : x ≤ flHi) :
    ∃ y, f.rd x = fin y ∧ Within (2 * κ) x y := by
  have hx : 0 ≤ x := flLo_pos.le.trans h0
  obtain ⟨y, hy, e⟩ := C.rd_norm x (by rwa [abs_of_nonneg hx]) (by rwa [abs_of_nonneg hx])
  exact ⟨y, hy, within_of_rel C.pos.le C.le_half hx e⟩

theorem Arith.Contract.rd_abs (C : f.Contract κ) {x : ℝ} (h1 : |x| ≤ flHi) :
    ∃ y, f.rd x = fin y ∧ |y - x| ≤ κ * (1 + |x|) := by
  by_cases h0 : flLo ≤ |x|
  · obtain ⟨y, hy, e⟩ := C.rd_norm x h0 h1
    exact ⟨y, hy, e.trans (mul_le_mul_of_nonneg_left (by linarith) C.pos.le)⟩
  · obtain ⟨y, hy, e⟩ := C.rd_sub x (not_le.1 h0)
    refine ⟨y, hy, e.trans ((show flLo ≤ 2⁻¹ ^ 50 by unfold flLo; norm_num).trans (C.tiny.trans ?_))⟩
    exact le_mul_of_one_le_right C.pos.le (by linarith [abs_nonneg x])

/-! ### sums -/

/-- the exact sum of the entries the tree adds -/
def RTree.total {n : ℕ} (x : Fin n → ℝ) (t : RTree n) : ℝ := (t.leaves.map x).sum

@[simp] theorem RTree.total_leaf {n : ℕ} (x : Fin n → ℝ) (i : Fin n) : (RTree.leaf i).total x = x i := by simp [RTree.total, RTree.leaves]
@[simp] theorem RTree.total_node {n : ℕ} (x : Fin n → ℝ) (l r : RTree n) : (RTree.node l r).total x = l.total x + r.total x := by
  simp [RTree.total, RTree.leaves]

theorem RTree.Covers.total {n : ℕ} {t : RTree n} (h : t.Covers) (x : Fin n → ℝ) : t.total x = ∑ i, x i := by
  unfold RTree.total
  rw [(h.map x).sum_eq]
  exact (List.sum_ofFn.symm.trans (by rw [List.ofFn_eq_map])).symm

theorem RTree.total_nonneg {n : ℕ} {x : Fin n → ℝ} (hx : ∀ i, 0 ≤ x i) (t : RTree n) : 0 ≤ t.total x := by
  induction t with
  | leaf i => simpa using hx i
  | node l r hl hr => simpa using add_nonneg hl hr

theorem RTree.total_zero_or {n : ℕ} {x : Fin n → ℝ} {c : ℝ} (hc : 0 ≤ c) (hx : ∀ i, x i = 0 ∨ c ≤ x i) (t : RTree n) : t.total x = 0 ∨ c ≤ t.total x := by
  have hx0 : ∀ i, 0 ≤ x i := fun i => (hx i).elim (fun h => h.symm.le) fun h => hc.trans h
  induction t with
  | leaf i => simpa using hx i
  | node l r hl hr =>
    rw [RTree.total_node]
    have tl := RTree.total_nonneg hx0 l
    have tr := RTree.total_nonneg hx0 r
    rcases hl with hl | hl
    · rcases hr with hr | hr
      · left; rw [hl, hr, add_zero]
      · right; linarith
    · right; linarith

/-- a sum of non-negative numbers that are zero or normal has relative error `2 κ` per addition on the longest path -/
theorem Arith.Contract.sum_within (C : f.Contract κ) {n : ℕ} {a : Fin n → F} {x : Fin n → ℝ} (ha : ∀ i, a i = fin (x i)) (hx : ∀ i, x i = 0 ∨ 3 * flLo ≤ x i)
    (t : RTree n) {D : ℕ} (hD : t.depth ≤ D) (hDκ : 2 * κ * D ≤ 1) (hS : 3 * t.total x ≤ flHi) :
    ∃ s, f.sum a t = fin s ∧ Within (2 * κ * D) (t.total x) s := by
  have hlo3 : 0 ≤ 3 * flLo := by have := flLo_pos; linarith
  have hx0 : ∀ i, 0 ≤ x i := fun i => (hx i).elim (fun h => h.symm.le) fun h => hlo3.trans h
  induction t generalizing D with
  | leaf i => exact ⟨x i, by simp [Arith.sum, ha], by simpa using Within.refl' (by have := C.pos; positivity) (hx0 i)⟩
  | node l r hl hr =>
    obtain ⟨D', rfl⟩ : ∃ D', D = D' + 1 := by cases D with | zero => simp [RTree.depth] at hD | succ k => exact ⟨k, rfl⟩
    simp only [RTree.depth, Nat.add_le_add_iff_right, max_le_iff] at hD
    have hp := C.pos
    have hD' : 2 * κ * D' ≤ 1 := by push_cast at hDκ; nlinarith
    have tl := RTree.total_nonneg hx0 l
    have tr := RTree.total_nonneg hx0 r
    have tz := RTree.total_zero_or hlo3 hx (.node l r)
    rw [RTree.total_node] at hS tz
    obtain ⟨p, hp', wp⟩ := hl hD.1 hD' (by linarith)
    obtain ⟨q, hq', wq⟩ := hr hD.2 hD' (by linarith)
    have w := wp.add wq
    have hhi : p + q ≤ flHi := (w.le_three hD' (by linarith)).trans hS
    have e : f.sum a (.node l r) = f.rd (p + q) := by simp [Arith.sum, hp', hq', Arith.r]
    rw [e, RTree.total_node]
    rcases tz with tz | tz
    · rw [tz] at w ⊢
      have h0 : p + q = 0 := le_antisymm (by simpa using w.2) (by simpa using w.1)
      rw [h0, C.rd_zero]
      exact ⟨0, rfl, by simp [Within]⟩
    · have hlo : flLo ≤ p + q := by have := w.third_le hD' (by linarith); linarith
      obtain ⟨y, hy, wy⟩ := C.rd_within hlo hhi
      exact ⟨y, hy, (w.trans wy).mono (by push_cast; linarith) (by linarith)⟩

/-- a sum of numbers of any sign: absolute error -/
theorem Arith.Contract.sum_abs (C : f.Contract κ) {n : ℕ} {a : Fin n → F} {x : Fin n → ℝ} (ha : ∀ i, a i = fin (x i)) {B : ℝ} (hx : ∀ i, |x i| + 1 ≤ B)
    (t : RTree n) {D : ℕ} (hD : t.depth ≤ D) (hDκ : 2 * κ * D ≤ 1) (hS : 2 * (t.leaves.length * B) ≤ flHi) :
    ∃ s, f.sum a t = fin s ∧ |s - t.total x| ≤ 2 * κ * D * (t.leaves.length * B) ∧ |t.total x| + 1 ≤ t.leaves.length * B := by
  have hp := C.pos
  have key : ∀ (t : RTree n) (D : ℕ), t.depth ≤ D → 2 * κ * D ≤ 1 → 2 * (t.leaves.length * B) ≤ flHi →
      ∃ s, f.sum a t = fin s ∧ |s - t.total x| ≤ ((1 + κ) ^ D - 1) * (t.leaves.length * B) ∧ |t.total x| + 1 ≤ t.leaves.length * B := by
    have hpow : ∀ D : ℕ, 2 * κ * D ≤ 1 → (1 + κ) ^ D - 1 ≤ 1 := by
      intro D h
      have h1 : (1 + κ) ^ D ≤ Real.exp (κ * D) := by
        rw [mul_comm κ, Real.exp_nat_mul]
        exact pow_le_pow_left₀ (by positivity) (by have := Real.add_one_le_exp κ; linarith) D
      have h2 : Real.exp (κ * D) ≤ Real.exp (1 / 2) := Real.exp_le_exp.2 (by linarith)
      have h3 : Real.exp (1 / 2) ≤ 2 := by
        have e : Real.exp (1 / 2) ^ 2 = Real.exp 1 := by rw [← Real.exp_nat_mul]; norm_num
        have := Real.exp_one_lt_d9
        nlinarith [Real.exp_pos (1 / 2 : ℝ)]
      linarith
    intro t
    induction t with
    | leaf i =>
      intro D _ _ _
      refine ⟨x i, by simp [Arith.sum, ha], ?_, by simpa [RTree.leaves] using hx i⟩
      have h1 : 1 ≤ (1 + κ) ^ D := one_le_pow₀ (by linarith)
      have := hx i
      have h2 : 0 ≤ B := by linarith [abs_nonneg (x i)]
      simp only [RTree.total_leaf, sub_self, abs_zero]
      have h3 : 0 ≤ (1 + κ) ^ D - 1 := by linarith
      positivity
    | node l r hl hr =>
      intro D hD hDκ hS
      obtain ⟨D', rfl⟩ : ∃ D', D = D' + 1 := by cases D with | zero => simp [RTree.depth] at hD | succ k => exact ⟨k, rfl⟩
      simp only [RTree.depth, Nat.add_le_add_iff_right, max_le_iff] at hD
      have hD' : 2 * κ * D' ≤ 1 := by push_cast at hDκ; nlinarith
      have hlen : ((RTree.node l r).leaves.length : ℝ) = l.leaves.length + r.leaves.length := by simp [RTree.leaves]
      rw [hlen] at hS ⊢
      have hB1 : 0 ≤ (l.leaves.length : ℝ) * B ∧ 0 ≤ (r.leaves.length : ℝ) * B := by
        have hn : ∀ t : RTree n, ∃ i : Fin n, True := fun t => by
          induction t with
          | leaf i => exact ⟨i, trivial⟩
          | node _ _ h _ => exact h
        obtain ⟨i, _⟩ := hn l
        have h2 : 0 ≤ B := by linarith [abs_nonneg (x i), hx i]
        constructor <;> positivity
      rw [add_mul] at hS ⊢
      obtain ⟨p, hp', ep, bp⟩ := hl D' hD.1 hD' (by linarith [hB1.2])
      obtain ⟨q, hq', eq, bq⟩ := hr D' hD.2 hD' (by linarith [hB1.1])
      have htot : |(RTree.node l r).total x| ≤ |l.total x| + |r.total x| := by rw [RTree.total_node]; exact abs_add_le _ _
      have herr : |p + q - (l.total x + r.total x)| ≤ ((1 + κ) ^ D' - 1) * (l.leaves.length * B + r.leaves.length * B) := by
        have : p + q - (l.total x + r.total x) = (p - l.total x) + (q - r.total x) := by ring
        rw [this, mul_add]
        exact (abs_add_le _ _).trans (add_le_add ep eq)
      have hpq : |p + q| + 1 ≤ (1 + κ) ^ D' * (l.leaves.length * B + r.leaves.length * B) := by
        have : p + q = (p + q - (l.total x + r.total x)) + (l.total x + r.total x) := by ring
        have h1 : |p + q| ≤ |p + q - (l.total x + r.total x)| + |l.total x + r.total x| := by
          conv_lhs => rw [this]
          exact abs_add_le _ _
        have h2 := abs_add_le (l.total x) (r.total x)
        nlinarith
      have hhi : |p + q| ≤ flHi := by
        have := hpow D' hD'
        have h3 : (1 + κ) ^ D' * (l.leaves.length * B + r.leaves.length * B) ≤ 2 * (l.leaves.length * B + r.leaves.length * B) :=
          mul_le_mul_of_nonneg_right (by linarith) (by linarith [hB1.1, hB1.2])
        linarith
      obtain ⟨y, hy, ey⟩ := C.rd_abs hhi
      refine ⟨y, by simp [Arith.sum, hp', hq', Arith.r, hy], ?_, by linarith⟩
      rw [RTree.total_node]
      have : y - (l.total x + r.total x) = (y - (p + q)) + (p + q - (l.total x + r.total x)) := by ring
      rw [this, pow_succ]
      refine (abs_add_le _ _).trans ((add_le_add ey herr).trans ?_)
      have := mul_le_mul_of_nonneg_left hpq hp.le
      nlinarith
  obtain ⟨s, hs, e, b⟩ := key t D hD hDκ hS
  refine ⟨s, hs, e.trans (mul_le_mul_of_nonneg_right ?_ (by linarith [abs_nonneg (t.total x)])), b⟩
  have h1 : (1 + κ) ^ D ≤ Real.exp (κ * D) := by
    rw [mul_comm κ, Real.exp_nat_mul]
    exact pow_le_pow_left₀ (by positivity) (by have := Real.add_one_le_exp κ; linarith) D
  have h0 : 0 ≤ κ * D := by positivity
  have h2 := Real.abs_exp_sub_one_le (x := κ * D) (by rw [abs_of_nonneg h0]; linarith)
  rw [abs_of_nonneg h0] at h2
  have := le_abs_self (Real.exp (κ * D) - 1)
  linarith

/-- `x` approximates `a` up to a factor `exp δ` and an amount `η` -/
def Near (δ η a x : ℝ) : Prop := Real.exp (-δ) * a - η ≤ x ∧ x ≤ Real.exp δ * a + η

theorem Within.near {δ η a x : ℝ} (hη : 0 ≤ η) (h : Within δ a x) : Near δ η a x := ⟨by linarith [h.1], by linarith [h.2]⟩

theorem Near.add {δ η η' a x b y : ℝ} (h : Near δ η a x) (h' : Near δ η' b y) : Near δ (η + η') (a + b) (x + y) :=
  ⟨by rw [mul_add]; linarith [h.1, h'.1], by rw [mul_add]; linarith [h.2, h'.2]⟩

theorem Near.mono {δ δ' η η' a x : ℝ} (hδ : δ ≤ δ') (hη : η ≤ η') (ha : 0 ≤ a) (h : Near δ η a x) : Near δ' η' a x := by
  have h1 := mul_le_mul_of_nonneg_right (Real.exp_le_exp.2 hδ) ha
  have h2 := mul_le_mul_of_nonneg_right (Real.exp_le_exp.2 (neg_le_neg hδ)) ha
  exact ⟨by linarith [h.1], by linarith [h.2]⟩

/-- an amount small against the number is a factor -/
theorem Near.within {δ η u a x : ℝ} (hδ : 0 ≤ δ) (hδ1 : δ ≤ 1) (hu1 : u ≤ 1) (hη : 6 * η ≤ u * a) (hη0 : 0 ≤ η) (ha : 0 < a) (h : Near δ η a x) : Within (δ + u) a x := by
  have hu0 : 0 ≤ u := by
    by_contra hc
    have := mul_neg_of_neg_of_pos (not_le.1 hc) ha
    linarith
  have e1 : 1 / 3 ≤ Real.exp (-δ) := by
    rw [Real.exp_neg, one_div]
    refine inv_anti₀ (Real.exp_pos _) ?_
    have := Real.exp_one_lt_d9
    exact (Real.exp_le_exp.2 hδ1).trans (by linarith)
  have e2 : 1 ≤ Real.exp δ := Real.one_le_exp hδ
  have e3 : u + 1 ≤ Real.exp u := Real.add_one_le_exp u
  have e4 : Real.exp (-u) ≤ 1 - u / 2 := by
    rw [Real.exp_neg, inv_le_comm₀ (Real.exp_pos _) (by linarith)]
    refine le_trans ?_ e3
    rw [inv_le_iff_one_le_mul₀ (by linarith)]
    nlinarith
  constructor
  · rw [neg_add, Real.exp_add]
    refine le_trans ?_ h.1
    have h1 : Real.exp (-δ) * Real.exp (-u) ≤ Real.exp (-δ) * (1 - u / 2) := mul_le_mul_of_nonneg_left e4 (Real.exp_pos _).le
    have h2 := mul_le_mul_of_nonneg_right h1 ha.le
    have h3 : 1 / 3 * (u / 2 * a) ≤ Real.exp (-δ) * (u / 2 * a) := mul_le_mul_of_nonneg_right e1 (by positivity)
    nlinarith
  · rw [Real.exp_add]
    refine h.2.trans ?_
    have h1 : Real.exp δ * (u + 1) ≤ Real.exp δ * Real.exp u := mul_le_mul_of_nonneg_left e3 (Real.exp_pos _).le
    have h2 := mul_le_mul_of_nonneg_right h1 ha.le
    have h3 : 1 * (u * a) ≤ Real.exp δ * (u * a) := mul_le_mul_of_nonneg_right e2 (by positivity)
    nlinarith

/-- rounding a number known up to a factor and an amount -/
theorem Arith.Contract.rd_near (C : f.Contract κ) {δ η a x : ℝ} (hδ : 0 ≤ δ) (hη : 0 ≤ η) (ha : 0 ≤ a) (hx : |x| ≤ flHi) (h : Near δ η a x) :
    ∃ y, f.rd x = fin y ∧ Near (δ + 2 * κ) ((1 + κ) * η + flLo) a y := by
  have κ0 := C.pos
  have hlo := flLo_pos
  by_cases hl : flLo ≤ |x|
  · obtain ⟨y, hy, ey⟩ := C.rd_norm x hl hx
    refine ⟨y, hy, ?_⟩
    have e2 : Real.exp (-(δ + 2 * κ)) * a ≤ Real.exp (-δ) * a := mul_le_mul_of_nonneg_right (Real.exp_le_exp.2 (by linarith)) ha
    have hηκ : 0 ≤ κ * η := by positivity
    rcases le_or_gt 0 x with h0 | h0
    · have w := within_of_rel κ0.le C.le_half h0 ey
      constructor
      · refine le_trans ?_ w.1
        have e1 : Real.exp (-(δ + 2 * κ)) * a = Real.exp (-(2 * κ)) * (Real.exp (-δ) * a) := by rw [← mul_assoc, ← Real.exp_add]; congr 2; ring
        have e3 : Real.exp (-(2 * κ)) ≤ 1 := Real.exp_le_one_iff.2 (by linarith)
        have e4 := mul_le_mul_of_nonneg_left h.1 (Real.exp_pos (-(2 * κ))).le
        have e5 : Real.exp (-(2 * κ)) * η ≤ 1 * η := mul_le_mul_of_nonneg_right e3 hη
        rw [e1]
        linarith
      · rw [abs_of_nonneg h0, abs_le] at ey
        have e1 : (1 + κ) * (Real.exp δ * a) ≤ Real.exp (δ + 2 * κ) * a := by
          rw [show Real.exp (δ + 2 * κ) * a = Real.exp (2 * κ) * (Real.exp δ * a) by rw [Real.exp_add]; ring]
          exact mul_le_mul_of_nonneg_right (by have := Real.add_one_le_exp (2 * κ); linarith) (mul_nonneg (Real.exp_pos _).le ha)
        have e3 := mul_le_mul_of_nonneg_left h.2 κ0.le
        linarith [ey.2, h.2]
    · rw [abs_of_neg h0, abs_le] at ey
      have e0 : 0 ≤ Real.exp (-δ) * a := mul_nonneg (Real.exp_pos _).le ha
      have hxη : -x ≤ η := by linarith [h.1]
      have e3 := mul_le_mul_of_nonneg_left hxη κ0.le
      constructor
      · linarith [ey.1, h.1]
      · have : 0 ≤ Real.exp (δ + 2 * κ) * a := mul_nonneg (Real.exp_pos _).le ha
        have e4 : (0:ℝ) ≤ -x * (1 - κ) := mul_nonneg (by linarith) (by linarith [C.le_half])
        linarith [ey.2]
  · obtain ⟨y, hy, ey⟩ := C.rd_sub x (not_le.1 hl)
    rw [abs_le] at ey
    have hηκ : 0 ≤ κ * η := by positivity
    have h' : Near δ ((1 + κ) * η + flLo) a y := ⟨by linarith [h.1, ey.1], by linarith [h.2, ey.2]⟩
    exact ⟨y, hy, h'.mono (by linarith) le_rfl ha⟩

theorem RTree.length_pos {n : ℕ} (t : RTree n) : 1 ≤ t.leaves.length := by
  induction t with
  | leaf i => simp [RTree.leaves]
  | node l r hl hr => simp [RTree.leaves]; omega

/-- a sum of non-negative numbers known up to a factor and an amount -/
theorem Arith.Contract.sum_near (C : f.Contract κ) {n : ℕ} {a : Fin n → F} {x w : Fin n → ℝ} {δ η B : ℝ} (hδ : 0 ≤ δ) (hη : 0 ≤ η) (ha : ∀ i, a i = fin (x i)) (hw : ∀ i, 0 ≤ w i)
    (hxw : ∀ i, Near δ η (w i) (x i)) (t : RTree n) {D : ℕ} (hD : t.depth ≤ D) (hDκ : δ + 2 * κ * D ≤ 1) (hB : t.leaves.length * (η + flLo) ≤ B)
    (hS : 3 * t.total w + 2 * B ≤ flHi) : ∃ s, f.sum a t = fin s ∧ Near (δ + 2 * κ * D) (2 * B) (t.total w) s := by
  have κ0 := C.pos
  have hlo := flLo_pos
  have hpow : ∀ k : ℕ, k ≤ D → (1 + κ) ^ k ≤ 2 := by
    intro k hk
    have hk' : (k:ℝ) ≤ D := by exact_mod_cast hk
    have h1 : (1 + κ) ^ k ≤ Real.exp (κ * k) := by
      rw [mul_comm κ, Real.exp_nat_mul]
      exact pow_le_pow_left₀ (by positivity) (by have := Real.add_one_le_exp κ; linarith) k
    have h2 : Real.exp (κ * k) ≤ Real.exp (1 / 2) := Real.exp_le_exp.2 (by nlinarith)
    have h3 : Real.exp (1 / 2) ≤ 2 := by
      have e : Real.exp (1 / 2) ^ 2 = Real.exp 1 := by rw [← Real.exp_nat_mul]; norm_num
      have := Real.exp_one_lt_d9
      nlinarith [Real.exp_pos (1 / 2 : ℝ)]
    linarith
  have key : ∀ t : RTree n, ∀ k : ℕ, t.depth ≤ k → k ≤ D → t.leaves.length * (η + flLo) ≤ B → 3 * t.total w + 2 * B ≤ flHi →
      ∃ s, f.sum a t = fin s ∧ Near (δ + 2 * κ * k) ((1 + κ) ^ k * (t.leaves.length * η + (t.leaves.length - 1) * flLo)) (t.total w) s := by
    intro t
    induction t with
    | leaf i =>
      intro k _ _ _ _
      refine ⟨x i, by simp [Arith.sum, ha], ?_⟩
      have h1 : 1 ≤ (1 + κ) ^ k := one_le_pow₀ (by linarith)
      simp only [RTree.total_leaf, RTree.leaves, List.length_singleton, Nat.cast_one, one_mul, sub_self, zero_mul, add_zero]
      exact (hxw i).mono (by have : 0 ≤ 2 * κ * k := by positivity
                             linarith) (le_mul_of_one_le_left hη h1) (hw i)
    | node l r hl hr =>
      intro k hk hkD hB hS
      obtain ⟨k, rfl⟩ : ∃ k', k = k' + 1 := by cases k with | zero => simp [RTree.depth] at hk | succ k => exact ⟨k, rfl⟩
      simp only [RTree.depth, Nat.add_le_add_iff_right, max_le_iff] at hk
      have hlen : ((RTree.node l r).leaves.length : ℝ) = l.leaves.length + r.leaves.length := by simp [RTree.leaves]
      have ll : (1:ℝ) ≤ l.leaves.length := by exact_mod_cast l.length_pos
      have lr : (1:ℝ) ≤ r.leaves.length := by exact_mod_cast r.length_pos
      rw [hlen] at hB ⊢
      rw [RTree.total_node] at hS ⊢
      have tl := RTree.total_nonneg hw l
      have tr := RTree.total_nonneg hw r
      have hηl : 0 ≤ η + flLo := by linarith
      have m1 := mul_nonneg (show (0:ℝ) ≤ l.leaves.length by linarith) hηl
      have m2 := mul_nonneg (show (0:ℝ) ≤ r.leaves.length by linarith) hηl
      obtain ⟨p, hp, np⟩ := hl k hk.1 (by omega) (by linarith) (by linarith)
      obtain ⟨q, hq, nq⟩ := hr k hk.2 (by omega) (by linarith) (by linarith)
      have nn := np.add nq
      set η' := (1 + κ) ^ k * (l.leaves.length * η + (l.leaves.length - 1) * flLo) + (1 + κ) ^ k * (r.leaves.length * η + (r.leaves.length - 1) * flLo) with hη'
      have c1 : 0 ≤ l.leaves.length * η + (l.leaves.length - 1) * flLo := add_nonneg (mul_nonneg (by linarith) hη) (mul_nonneg (by linarith) hlo.le)
      have c2 : 0 ≤ r.leaves.length * η + (r.leaves.length - 1) * flLo := add_nonneg (mul_nonneg (by linarith) hη) (mul_nonneg (by linarith) hlo.le)
      have p1 : 1 ≤ (1 + κ) ^ k := one_le_pow₀ (by linarith)
      have p2 := hpow k (by omega)
      have hη'0 : 0 ≤ η' := add_nonneg (mul_nonneg (by linarith) c1) (mul_nonneg (by linarith) c2)
      have hη'B : η' ≤ 2 * B := by
        have : η' = (1 + κ) ^ k * ((l.leaves.length * η + (l.leaves.length - 1) * flLo) + (r.leaves.length * η + (r.leaves.length - 1) * flLo)) := by rw [hη']; ring
        rw [this]
        refine (mul_le_mul_of_nonneg_right p2 (by linarith)).trans ?_
        linarith
      have hkκ : δ + 2 * κ * k ≤ 1 := by
        have hk' : (k:ℝ) ≤ D := by exact_mod_cast (show k ≤ D by omega)
        nlinarith
      have h3 : Real.exp (δ + 2 * κ * k) ≤ 3 := by
        have := Real.exp_one_lt_d9
        exact (Real.exp_le_exp.2 hkκ).trans (by linarith)
      have hx : |p + q| ≤ flHi := by
        have hT : 0 ≤ l.total w + r.total w := by linarith
        rw [abs_le]
        constructor
        · have := mul_nonneg (Real.exp_pos (-(δ + 2 * κ * k))).le hT
          linarith [nn.1]
        · have := mul_le_mul_of_nonneg_right h3 hT
          linarith [nn.2]
      obtain ⟨y, hy, ny⟩ := C.rd_near (by positivity) hη'0 (by linarith) hx nn
      refine ⟨y, by simp [Arith.sum, hp, hq, Arith.r, hy], ny.mono (by push_cast; linarith) ?_ (by linarith)⟩
      have e : (1 + κ) ^ (k + 1) * ((l.leaves.length + r.leaves.length) * η + (l.leaves.length + r.leaves.length - 1) * flLo) = (1 + κ) * η' + (1 + κ) ^ (k + 1) * flLo := by
        rw [hη']; ring
      rw [e]
      have : 1 * flLo ≤ (1 + κ) ^ (k + 1) * flLo := mul_le_mul_of_nonneg_right (one_le_pow₀ (by linarith)) hlo.le
      linarith
  obtain ⟨s, hs, ns⟩ := key t D hD le_rfl hB hS
  refine ⟨s, hs, ns.mono le_rfl ?_ (RTree.total_nonneg hw t)⟩
  have l1 : (1:ℝ) ≤ t.leaves.length := by exact_mod_cast t.length_pos
  have c1 : 0 ≤ t.leaves.length * η + (t.leaves.length - 1) * flLo := add_nonneg (mul_nonneg (by linarith) hη) (mul_nonneg (by linarith) hlo.le)
  refine (mul_le_mul_of_nonneg_right (hpow D le_rfl) c1).trans ?_
  linarith

theorem RTree.Covers.length {n : ℕ} {t : RTree n} (h : t.Covers) : t.leaves.length = n := by
  rw [h.length_eq]; simp

/-! ### single precision -/

/-- the spacing of single precision around `x` -/
def ulp32 (x : ℝ) : ℝ := 2 ^ (max (Int.log 2 |x|) (-126) - 23)

/-- rounding to the nearest number of single precision, overflowing to an infinity -/
def rd32 (x : ℝ) : F :=
  let y := (round (x / ulp32 x) : ℝ) * ulp32 x
  if 2 ^ 128 ≤ y then pinf else if y ≤ -2 ^ 128 then ninf else fin y

/-- single precision with correctly rounded `exp` and `log` -/
def binary32 : Arith where
  rd := rd32
  exp := fun a => match F.exp a with | fin x => rd32 x | v => v
  log := fun a => match F.log a with | fin x => rd32 x | v => v

theorem ulp32_pos (x : ℝ) : 0 < ulp32 x := by unfold ulp32; positivity

theorem rd32_err (x : ℝ) : |(round (x / ulp32 x) : ℝ) * ulp32 x - x| ≤ ulp32 x / 2 := by
  have hu := ulp32_pos x
  have h := abs_sub_round (x / ulp32 x)
  have e : (round (x / ulp32 x) : ℝ) * ulp32 x - x = -((x / ulp32 x - round (x / ulp32 x)) * ulp32 x) := by field_simp; ring
  rw [e, abs_neg, abs_mul, abs_of_pos hu]
  nlinarith

theorem rd32_eq {x : ℝ} (h : |(round (x / ulp32 x) : ℝ) * ulp32 x| < 2 ^ 128) : rd32 x = fin ((round (x / ulp32 x) : ℝ) * ulp32 x) := by
  rw [abs_lt] at h
  unfold rd32
  simp only
  rw [if_neg (not_le.2 h.2), if_neg (not_le.2 h.1)]

theorem ulp32_normal {x : ℝ} (h : flLo ≤ |x|) : ulp32 x ≤ 2⁻¹ ^ 23 * |x| := by
  have hx : 0 < |x| := flLo_pos.trans_le h
  have hl : (-126 : ℤ) ≤ Int.log 2 |x| := by
    rw [← Int.zpow_le_iff_le_log (by norm_num) hx]
    refine le_trans (le_of_eq ?_) h
    unfold flLo; norm_num
  unfold ulp32
  rw [max_eq_left hl, zpow_sub₀ (by norm_num)]
  have := Int.zpow_log_le_self (b := 2) (by norm_num) hx
  have e : (2:ℝ) ^ Int.log 2 |x| / 2 ^ (23:ℤ) = 2⁻¹ ^ 23 * (2 ^ Int.log 2 |x|) := by norm_num; ring
  rw [e]
  push_cast at this
  exact mul_le_mul_of_nonneg_left this (by positivity)

theorem ulp32_sub {x : ℝ} (hx : x ≠ 0) (h : |x| < flLo) : ulp32 x = 2⁻¹ ^ 149 := by
  unfold ulp32
  have h0 : 0 < |x| := abs_pos.2 hx
  have hl : Int.log 2 |x| < (-126 : ℤ) := by
    rw [← Int.lt_zpow_iff_log_lt (by norm_num) h0]
    refine h.trans_le (le_of_eq ?_)
    unfold flLo; norm_num
  rw [max_eq_right hl.le]; norm_num

theorem rd32_norm {x : ℝ} (h0 : flLo ≤ |x|) (h1 : |x| ≤ flHi) : ∃ y, rd32 x = fin y ∧ |y - x| ≤ 2⁻¹ ^ 24 * |x| := by
  have e := rd32_err x
  have u := ulp32_normal h0
  have e' : |(round (x / ulp32 x) : ℝ) * ulp32 x - x| ≤ 2⁻¹ ^ 24 * |x| := by
    refine e.trans ?_
    have : (2⁻¹ : ℝ) ^ 24 = 2⁻¹ ^ 23 / 2 := by norm_num
    rw [this]; linarith
  refine ⟨_, rd32_eq ?_, e'⟩
  have h2 := abs_sub_abs_le_abs_sub ((round (x / ulp32 x) : ℝ) * ulp32 x) x
  have h3 : (2⁻¹ : ℝ) ^ 24 * |x| ≤ 2⁻¹ ^ 24 * flHi := mul_le_mul_of_nonneg_left h1 (by positivity)
  have h4 : flHi + 2⁻¹ ^ 24 * flHi < 2 ^ 128 := by unfold flHi; norm_num
  linarith

theorem rd32_int {x : ℝ} (k : ℤ) (h : x / ulp32 x = k) (hb : |x| < 2 ^ 128) : rd32 x = fin x := by
  have e : (round (x / ulp32 x) : ℝ) * ulp32 x = x := by
    rw [h, round_intCast, ← h, div_mul_cancel₀ _ (ulp32_pos x).ne']
  rw [rd32_eq (by rwa [e]), e]

theorem rd32_zero : rd32 0 = fin 0 := rd32_int 0 (by simp) (by norm_num)

theorem rd32_sub {x : ℝ} (h : |x| < flLo) : ∃ y, rd32 x = fin y ∧ |y - x| ≤ 2⁻¹ ^ 150 := by
  by_cases hx : x = 0
  · subst hx; exact ⟨0, rd32_zero, by simp⟩
  have e := rd32_err x
  have u := ulp32_sub hx h
  have e' : |(round (x / ulp32 x) : ℝ) * ulp32 x - x| ≤ 2⁻¹ ^ 150 := by
    refine e.trans ?_
    rw [u]; norm_num
  refine ⟨_, rd32_eq ?_, e'⟩
  have h2 := abs_sub_abs_le_abs_sub ((round (x / ulp32 x) : ℝ) * ulp32 x) x
  have h3 := flLo_le_one
  have h4 : (2⁻¹ : ℝ) ^ 150 ≤ 1 := pow_le_one₀ (by norm_num) (by norm_num)
  have h5 : (2 : ℝ) < 2 ^ 128 := by norm_num
  linarith

theorem rd32_nat {n : ℕ} (hn : n ≤ 2 ^ 24) : rd32 n = fin n := by
  rcases Nat.eq_zero_or_pos n with h0 | h0
  · subst h0; simpa using rd32_zero
  have hn' : (n : ℝ) ≤ 2 ^ 24 := by exact_mod_cast hn
  have hx : (0:ℝ) < n := by exact_mod_cast h0
  have hx1 : (1:ℝ) ≤ n := by exact_mod_cast h0
  have hlog : Int.log 2 |(n:ℝ)| = Nat.log 2 n := by
    rw [abs_of_pos hx, Int.log_natCast]
  have hmax : max (Int.log 2 |(n:ℝ)|) (-126) = Nat.log 2 n := by rw [hlog]; exact max_eq_left (by omega)
  have hb : |(n:ℝ)| < 2 ^ 128 := by rw [abs_of_pos hx]; exact hn'.trans_lt (by norm_num)
  rcases hn.eq_or_lt with h | h
  · have hL : Nat.log 2 n = 24 := by rw [h]; exact Nat.log_pow (by norm_num) 24
    refine rd32_int (2 ^ 23) ?_ hb
    unfold ulp32
    rw [hmax, hL, h]; norm_num
  · have hL : Nat.log 2 n ≤ 23 := by
      have := Nat.log_lt_of_lt_pow h0.ne' h
      omega
    refine rd32_int (n * 2 ^ (23 - Nat.log 2 n)) ?_ hb
    unfold ulp32
    rw [hmax]
    have : ((Nat.log 2 n : ℤ) - 23) = -((23 - Nat.log 2 n : ℕ) : ℤ) := by omega
    rw [this, zpow_neg, zpow_natCast]
    push_cast
    rw [div_inv_eq_mul]

theorem rd32_big {x : ℝ} (hx : |x| ≤ 2 ^ 100) : rd32 (-BIG + x) = fin (-BIG) := by
  rw [abs_le] at hx
  have hneg : -BIG + x ≤ 0 := by unfold BIG; norm_num at hx ⊢; linarith [hx.2]
  have ha : |-BIG + x| = BIG - x := by rw [abs_of_nonpos hneg]; ring
  have hlog : Int.log 2 |-BIG + x| = 127 := by
    rw [ha]
    refine le_antisymm ?_ ?_
    · have : Int.log 2 (BIG - x) < 128 := by
        rw [← Int.lt_zpow_iff_log_lt (by norm_num) (by unfold BIG; norm_num at hx ⊢; linarith [hx.2])]
        unfold BIG; norm_num at hx ⊢; linarith [hx.1]
      omega
    · rw [← Int.zpow_le_iff_le_log (by norm_num) (by unfold BIG; norm_num at hx ⊢; linarith [hx.2])]
      unfold BIG; norm_num at hx ⊢; linarith [hx.2]
  have hu : ulp32 (-BIG + x) = 2 ^ 104 := by
    unfold ulp32; rw [hlog]; norm_num
  have hr : round ((-BIG + x) / ulp32 (-BIG + x)) = -(2 ^ 24 - 1) := by
    rw [hu, round_eq, Int.floor_eq_iff]
    unfold BIG
    norm_num at hx ⊢
    constructor <;> linarith [hx.1, hx.2]
  have hv : (round ((-BIG + x) / ulp32 (-BIG + x)) : ℝ) * ulp32 (-BIG + x) = -BIG := by
    rw [hr, hu]; unfold BIG; norm_num
  rw [rd32_eq (by rw [hv]; unfold BIG; norm_num), hv]

theorem rd32_under {x : ℝ} (h : |x| < 2⁻¹ ^ 150) : rd32 x = fin 0 := by
  have hlo : |x| < flLo := h.trans (by unfold flLo; norm_num)
  by_cases hx : x = 0
  · subst hx; exact rd32_zero
  have hr : round (x / ulp32 x) = 0 := by
    rw [ulp32_sub hx hlo, round_eq_zero_iff]
    rw [abs_lt] at h
    have e : (2⁻¹ : ℝ) ^ 150 = 2⁻¹ ^ 149 / 2 := by norm_num
    rw [e] at h
    have hp : (0:ℝ) < 2⁻¹ ^ 149 := by positivity
    constructor
    · rw [le_div_iff₀ hp]; linarith [h.1]
    · rw [div_lt_iff₀ hp]; linarith [h.2]
  rw [rd32_eq (by rw [hr]; norm_num), hr]; simp

/-- single precision with correctly rounded library functions meets the contract -/
theorem binary32_contract : binary32.Contract (2⁻¹ ^ 23) where
  pos := by positivity
  small := by norm_num
  tiny := by norm_num
  rd_zero := rd32_zero
  rd_norm := fun x h0 h1 => by
    obtain ⟨y, hy, e⟩ := rd32_norm h0 h1
    exact ⟨y, hy, e.trans (mul_le_mul_of_nonneg_right (by norm_num) (abs_nonneg x))⟩
  rd_sub := fun x h => by
    obtain ⟨y, hy, e⟩ := rd32_sub h
    exact ⟨y, hy, e.trans (by unfold flLo; norm_num)⟩
  rd_under := fun x h => rd32_under h
  rd_over := fun x h => by
    have hhi : (0:ℝ) < flHi := by unfold flHi; positivity
    have hx : |x| = -x := abs_of_neg (by linarith)
    have hu : ulp32 x ≤ 2⁻¹ ^ 23 * |x| := ulp32_normal (by rw [hx]; have := flLo_le_one; have := flHi_one; linarith)
    have he := (abs_le.1 (rd32_err x)).2
    rw [hx] at hu
    have hy : (round (x / ulp32 x) : ℝ) * ulp32 x ≤ -2 ^ 100 := by
      unfold flHi at h
      norm_num at h hu ⊢
      linarith
    by_cases hb : (round (x / ulp32 x) : ℝ) * ulp32 x ≤ -2 ^ 128
    · left
      show rd32 x = ninf
      unfold rd32
      rw [if_neg (by norm_num at hb ⊢; linarith), if_pos hb]
    · right
      refine ⟨_, rd32_eq ?_, hy⟩
      rw [abs_lt]
      exact ⟨not_le.1 hb, by norm_num at hy ⊢; linarith⟩
  rd_nat := fun n h => rd32_nat h
  rd_big := fun x h => rd32_big h
  exp_norm := fun x hx => by
    have h80 : Real.exp 80 ≤ 2 ^ 120 := by
      have : Real.exp 80 = Real.exp 1 ^ 80 := by rw [← Real.exp_nat_mul]; norm_num
      rw [this]
      refine (pow_le_pow_left₀ (Real.exp_pos _).le Real.exp_one_lt_d9.le 80).trans ?_
      norm_num
    rw [abs_le] at hx
    have h1 : Real.exp x ≤ flHi := (Real.exp_le_exp.2 hx.2).trans (h80.trans (by unfold flHi; norm_num))
    have h0 : flLo ≤ Real.exp x := by
      refine le_trans ?_ (Real.exp_le_exp.2 hx.1)
      rw [Real.exp_neg]
      refine le_trans ?_ (inv_anti₀ (Real.exp_pos _) h80)
      unfold flLo; norm_num
    have ha : |Real.exp x| = Real.exp x := abs_of_pos (Real.exp_pos x)
    obtain ⟨y, hy, e⟩ := rd32_norm (by rwa [ha]) (by rwa [ha])
    refine ⟨y, hy, ?_⟩
    have := within_of_rel (κ := 2⁻¹ ^ 24) (by positivity) (by norm_num) (Real.exp_pos x).le e
    exact this.mono (by norm_num) (Real.exp_pos x).le
  exp_small := fun x hx => by
    have h1 : Real.exp x ≤ 2⁻¹ ^ 112 := by
      refine (Real.exp_le_exp.2 hx.le).trans ?_
      have : Real.exp (-80) = (Real.exp 1 ^ 80)⁻¹ := by rw [← Real.exp_nat_mul, ← Real.exp_neg]; norm_num
      rw [this]
      refine (inv_anti₀ (by positivity) (pow_le_pow_left₀ (by norm_num) Real.exp_one_gt_d9.le 80)).trans ?_
      norm_num
    have h0 := Real.exp_pos x
    have ha : |Real.exp x| = Real.exp x := abs_of_pos h0
    by_cases hlo : flLo ≤ Real.exp x
    · obtain ⟨y, hy, e⟩ := rd32_norm (x := Real.exp x) (by rwa [ha]) (by rw [ha]; exact h1.trans (by unfold flHi; norm_num))
      rw [ha, abs_le] at e
      norm_num at e h1
      refine ⟨y, hy, by linarith [e.1], by norm_num; linarith [e.2]⟩
    · have hu := ulp32_sub h0.ne' (by rw [ha]; exact not_le.1 hlo)
      have he := abs_le.1 (rd32_err (Real.exp x))
      have hr : 0 ≤ round (Real.exp x / ulp32 (Real.exp x)) := by
        rw [round_eq]
        exact Int.floor_nonneg.2 (by have := ulp32_pos (Real.exp x); positivity)
      have hr' : (0:ℝ) ≤ (round (Real.exp x / ulp32 (Real.exp x)) : ℝ) * ulp32 (Real.exp x) :=
        mul_nonneg (by exact_mod_cast hr) (ulp32_pos _).le
      rw [hu] at he hr'
      have hy : (round (Real.exp x / 2⁻¹ ^ 149) : ℝ) * 2⁻¹ ^ 149 ≤ 2⁻¹ ^ 110 := by
        have := he.2
        norm_num at this h1 ⊢; linarith
      refine ⟨(round (Real.exp x / 2⁻¹ ^ 149) : ℝ) * 2⁻¹ ^ 149, ?_, hr', hy⟩
      have := rd32_eq (x := Real.exp x) (by rw [hu, abs_of_nonneg hr']; exact hy.trans_lt (by norm_num))
      rw [hu] at this
      exact this
  exp_pinf := rfl
  exp_ninf := rd32_zero
  log_norm := fun x h0 h1 => by
    have hx : 0 < x := flLo_pos.trans_le h0
    have e : binary32.log (fin x) = rd32 (Real.log x) := by simp [binary32, F.log_fin hx]
    rw [e]
    have hhi : |Real.log x| ≤ flHi := by
      rw [abs_le]
      constructor
      · have h2 : -Real.log x ≤ x⁻¹ - 1 := by rw [← Real.log_inv]; exact Real.log_le_sub_one_of_pos (inv_pos.2 hx)
        have h3 : x⁻¹ ≤ flHi := (inv_anti₀ flLo_pos h0).trans (by unfold flLo flHi; norm_num)
        linarith
      · have := Real.log_le_sub_one_of_pos hx; linarith
    by_cases hl : flLo ≤ |Real.log x|
    · obtain ⟨y, hy, e⟩ := rd32_norm hl hhi
      refine ⟨y, hy, e.trans (mul_le_mul (by norm_num) (by linarith) (abs_nonneg _) (by positivity))⟩
    · obtain ⟨y, hy, e⟩ := rd32_sub (not_le.1 hl)
      refine ⟨y, hy, e.trans ?_⟩
      refine le_trans ?_ (le_mul_of_one_le_right (by positivity) (by linarith [abs_nonneg (Real.log x)]))
      norm_num
  log_zero := by simp [binary32]
  log_nan := rfl

end GW
end
