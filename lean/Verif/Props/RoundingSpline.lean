import Verif.Model.RoundingSpline
import Verif.Props.RoundingBasics
import Verif.Lemmas.BSpline
import Verif.Lemmas.SplineInit

/-! # C143: the basis splines in rounded arithmetic -/

open Finset
noncomputable section
open Classical
namespace GW
open F

/-- `b` is the non-negative number `a` up to a relative error `q - 1` and an amount `δ` -/
def Lin (q δ a b : ℝ) : Prop := |b - a| ≤ (q - 1) * a + δ

theorem Lin.mono {q q' δ δ' a b : ℝ} (ha : 0 ≤ a) (hq : q ≤ q') (hδ : δ ≤ δ') (h : Lin q δ a b) : Lin q' δ' a b :=
  h.trans (add_le_add (mul_le_mul_of_nonneg_right (by linarith) ha) hδ)

theorem Lin.abs_le {q δ a b : ℝ} (ha : 0 ≤ a) (h : Lin q δ a b) : |b| ≤ q * a + δ := by
  have : b = (b - a) + a := by ring
  rw [this]
  refine (abs_add_le _ _).trans ?_
  rw [abs_of_nonneg ha]
  unfold Lin at h
  linarith

theorem Lin.add {q δ δ' a b c d : ℝ} (h : Lin q δ a b) (h' : Lin q δ' c d) : Lin q (δ + δ') (a + c) (b + d) := by
  unfold Lin at *
  have : b + d - (a + c) = (b - a) + (d - c) := by ring
  rw [this]
  refine (abs_add_le _ _).trans ?_
  linarith

theorem Lin.mul {q q' δ δ' a b c d : ℝ} (ha : 0 ≤ a) (hc : 0 ≤ c) (h : Lin q δ a b) (h' : Lin q' δ' c d) :
    Lin (q * q') (δ * (q' * c) + δ' * (q * a) + δ * δ') (a * c) (b * d) := by
  have hd := h'.abs_le hc
  unfold Lin at *
  have : b * d - a * c = (b - a) * d + a * (d - c) := by ring
  rw [this]
  refine (abs_add_le _ _).trans ?_
  rw [abs_mul, abs_mul, abs_of_nonneg ha]
  have h1 : |b - a| * |d| ≤ ((q - 1) * a + δ) * (q' * c + δ') := mul_le_mul h hd (abs_nonneg _) ((abs_nonneg _).trans h)
  have h2 := mul_le_mul_of_nonneg_left h' ha
  nlinarith

theorem Lin.div {q δ r a b d e : ℝ} (ha : 0 ≤ a) (hd : 0 < d) (he : 0 < e) (hr : 1 ≤ r) (h1 : d ≤ r * e) (h2 : e ≤ r * d) (h : Lin q δ a b) :
    Lin (q * r) (r * δ / d) (a / d) (b / e) := by
  unfold Lin at *
  have e1 : b / e - a / d = (b - a) / e + a / d * (d / e - 1) := by field_simp; ring
  have h3 : d / e ≤ r := by rw [div_le_iff₀ he]; exact h1
  have h4 : 2 - r ≤ d / e := by
    rw [le_div_iff₀ he]
    rcases le_or_gt r 2 with h | h
    · nlinarith
    · nlinarith
  have h5 : |d / e - 1| ≤ r - 1 := by rw [_root_.abs_le]; constructor <;> linarith
  have h6 : |(b - a) / e| ≤ r / d * ((q - 1) * a + δ) := by
    rw [abs_div, abs_of_pos he, div_le_iff₀ he]
    have : 1 ≤ r / d * e := by rw [div_mul_eq_mul_div, le_div_iff₀ hd]; linarith
    have hp := (abs_nonneg _).trans h
    calc |b - a| ≤ (q - 1) * a + δ := h
      _ ≤ (r / d * e) * ((q - 1) * a + δ) := le_mul_of_one_le_left hp this
      _ = r / d * ((q - 1) * a + δ) * e := by ring
  rw [e1]
  refine (abs_add_le _ _).trans ?_
  rw [abs_mul, abs_of_nonneg (div_nonneg ha hd.le)]
  have h7 := mul_le_mul_of_nonneg_left h5 (div_nonneg ha hd.le)
  refine (add_le_add h6 h7).trans (le_of_eq ?_)
  field_simp
  ring

variable {f : Arith} {κ : ℝ}

theorem Arith.Contract.rd_lin (C : f.Contract κ) {q δ a b : ℝ} (ha : 0 ≤ a) (hb : |b| ≤ flHi) (h : Lin q δ a b) :
    ∃ y, f.r (fin b) = fin y ∧ Lin (q * (1 + κ)) ((1 + κ) * δ + flLo) a y := by
  have hκ := C.pos
  have hlo := flLo_pos
  have key : ∃ y, f.rd b = fin y ∧ |y - b| ≤ κ * |b| + flLo := by
    by_cases h0 : flLo ≤ |b|
    · obtain ⟨y, hy, e⟩ := C.rd_norm b h0 hb
      exact ⟨y, hy, by linarith⟩
    · obtain ⟨y, hy, e⟩ := C.rd_sub b (not_le.1 h0)
      exact ⟨y, hy, by have := mul_nonneg hκ.le (abs_nonneg b); linarith⟩
  obtain ⟨y, hy, e⟩ := key
  refine ⟨y, hy, ?_⟩
  have hab := mul_le_mul_of_nonneg_left (h.abs_le ha) hκ.le
  unfold Lin at *
  have : y - a = (y - b) + (b - a) := by ring
  rw [this]
  refine (abs_add_le _ _).trans ?_
  nlinarith

/-- What is asked of the knots: sorted, equal or at least `2^-m` apart, at most `2^m` from first to last. -/
structure KnotsOK (t : ℕ → ℝ) (m : ℕ) : Prop where
  mono : Monotone t
  gap : ∀ i, t (i + 1) - t i = 0 ∨ 2⁻¹ ^ m ≤ t (i + 1) - t i
  range : ∀ i, t i - t 0 ≤ 2 ^ m
  small : m ≤ 18

theorem KnotsOK.gap' {t : ℕ → ℝ} {m : ℕ} (h : KnotsOK t m) (i k : ℕ) : t (i + k) - t i = 0 ∨ 2⁻¹ ^ m ≤ t (i + k) - t i := by
  induction k with
  | zero => left; simp
  | succ k ih =>
    have e : t (i + (k + 1)) - t i = (t (i + k + 1) - t (i + k)) + (t (i + k) - t i) := by rw [← add_assoc]; ring
    have h1 := h.gap (i + k)
    have h2 : 0 ≤ t (i + k) - t i := sub_nonneg.2 (h.mono (by omega))
    have h3 : 0 ≤ t (i + k + 1) - t (i + k) := sub_nonneg.2 (h.mono (by omega))
    rw [e]
    rcases h1 with h1 | h1
    · rw [h1, zero_add]; exact ih
    · right; linarith

theorem KnotsOK.le {t : ℕ → ℝ} {m : ℕ} (h : KnotsOK t m) (i k : ℕ) : t (i + k) - t i ≤ 2 ^ m := by
  have := h.range (i + k)
  have h2 : t 0 ≤ t i := h.mono (by omega)
  linarith

theorem knotEps_lt {m : ℕ} (hm : m ≤ 18) : 2 * knotEps ≤ 2⁻¹ ^ m := by
  have : (2⁻¹ : ℝ) ^ 18 ≤ 2⁻¹ ^ m := pow_le_pow_of_le_one (by norm_num) (by norm_num) hm
  refine le_trans ?_ this
  norm_num [knotEps]

/-- the rounded gap: zero if the knots agree, else accurate; and the comparison with the threshold is decided as without rounding -/
theorem Arith.Contract.gap (C : f.Contract κ) {t : ℕ → ℝ} {m : ℕ} (h : KnotsOK t m) (i k : ℕ) :
    (t (i + k) - t i = 0 ∧ t (i + k) - t i < knotEps ∧ lt (f.r (fin (t (i + k)) - fin (t i))) (f.rd knotEps)) ∨
    (2⁻¹ ^ m ≤ t (i + k) - t i ∧ ¬ t (i + k) - t i < knotEps ∧ ¬ lt (f.r (fin (t (i + k)) - fin (t i))) (f.rd knotEps) ∧
      ∃ g, f.r (fin (t (i + k)) - fin (t i)) = fin g ∧ |g - (t (i + k) - t i)| ≤ κ * (t (i + k) - t i)) := by
  have hs := C.small
  have hκ := C.pos
  have ke := knotEps_pos
  obtain ⟨e, he, ee⟩ := C.rd_norm knotEps (by rw [abs_of_pos ke]; unfold knotEps flLo; norm_num) (by rw [abs_of_pos ke]; unfold knotEps flHi; norm_num)
  rw [abs_of_pos ke, abs_le] at ee
  have hκ2 : κ ≤ 1 / 4 := hs.trans (by norm_num)
  simp only [sub_fin]
  rcases h.gap' i k with h0 | h0
  · left
    refine ⟨h0, by rw [h0]; exact ke, ?_⟩
    rw [h0]
    have : f.r (fin 0) = fin 0 := C.rd_zero
    rw [this, he, lt_fin]
    nlinarith
  · right
    have kl := knotEps_lt h.small
    have hp : 0 < t (i + k) - t i := lt_of_lt_of_le (by positivity) h0
    have hle := h.le i k
    obtain ⟨g, hg, eg⟩ := C.rd_norm (t (i + k) - t i) (by
        rw [abs_of_pos hp]
        refine le_trans ?_ h0
        unfold flLo
        exact pow_le_pow_of_le_one (by norm_num) (by norm_num) (by have := h.small; omega))
      (by rw [abs_of_pos hp]
          refine hle.trans ?_
          unfold flHi
          exact pow_le_pow_right₀ (by norm_num) (by have := h.small; omega))
    rw [abs_of_pos hp] at eg
    refine ⟨h0, by rw [not_lt]; linarith, ?_, g, hg, eg⟩
    have : f.r (fin (t (i + k) - t i)) = fin g := hg
    rw [this, he, lt_fin, not_lt]
    rw [abs_le] at eg
    nlinarith [eg.1]

/-- size of a component -/
theorem basis_le {t : ℕ → ℝ} {m : ℕ} (h : KnotsOK t m) (x : ℝ) (k : ℕ) : ∀ i, basis t x k i ≤ k * 2 ^ m := by
  induction k using Nat.strong_induction_on with
  | _ k ih =>
    intro i
    match k with
    | 0 => simp [basis]
    | 1 =>
      rw [basis_one]
      split_ifs with h1 h2
      · simp
      · have h3 : 2⁻¹ ^ m ≤ t (i + 1) - t i := (h.gap i).resolve_left (by intro e; rw [e] at h1; exact h1 knotEps_pos)
        rw [one_div, Nat.cast_one, one_mul]
        refine (inv_anti₀ (by positivity) h3).trans (le_of_eq ?_)
        rw [inv_pow, inv_inv]
      · simp
    | k + 2 =>
      rw [basis_add_two]
      split_ifs with h1
      · positivity
      · have hg : 0 < t (i + (k + 2)) - t i := lt_of_lt_of_le knotEps_pos (not_lt.1 h1)
        have hk : (0:ℝ) < (k:ℝ) + 1 := by positivity
        rw [div_le_iff₀ (mul_pos hk hg)]
        have h2 := ih (k + 1) (by omega) i
        have h3 := ih (k + 1) (by omega) (i + 1)
        have n2 := basis_nonneg h.mono (x := x) (k + 1) i
        have n3 := basis_nonneg h.mono (x := x) (k + 1) (i + 1)
        push_cast at h2 h3 ⊢
        have hU : 0 ≤ ((k:ℝ) + 1) * 2 ^ m := by positivity
        have key : (x - t i) * basis t x (k + 1) i + (t (i + (k + 2)) - x) * basis t x (k + 1) (i + 1) ≤ (t (i + (k + 2)) - t i) * (((k:ℝ) + 1) * 2 ^ m) := by
          by_cases hx1 : x < t i
          · rw [basis_eq_zero_of_lt h.mono _ _ hx1, basis_eq_zero_of_lt h.mono _ _ (hx1.trans_le (h.mono (Nat.le_succ i)))]
            simp only [mul_zero, add_zero]; positivity
          · by_cases hx2 : t (i + (k + 2)) ≤ x
            · have e1 : basis t x (k + 1) i = 0 := basis_eq_zero_of_ge h.mono _ _ ((h.mono (by omega)).trans hx2)
              have e2 : basis t x (k + 1) (i + 1) = 0 := basis_eq_zero_of_ge h.mono _ _ (by rw [show i + 1 + (k + 1) = i + (k + 2) by ring]; exact hx2)
              rw [e1, e2]; simp only [mul_zero, add_zero]; positivity
            · have a1 : 0 ≤ x - t i := by linarith
              have a2 : 0 ≤ t (i + (k + 2)) - x := by linarith
              have := mul_le_mul_of_nonneg_left h2 a1
              have := mul_le_mul_of_nonneg_left h3 a2
              linarith
        have := mul_le_mul_of_nonneg_right key (show (0:ℝ) ≤ (k:ℝ) + 2 by positivity)
        linarith

/-- the amount lost by underflow in a component of order `k` -/
def lost (m k : ℕ) : ℝ := 2 ^ (2 * m + 9 + 4 * k) * flLo

theorem Arith.Contract.pow_le (C : f.Contract κ) {n : ℕ} (hn : n ≤ 220) : (1 + κ) ^ n ≤ 9 / 8 := by
  have hκ := C.pos
  have h1 : (1 + κ) ^ n ≤ (1 + κ) ^ 220 := pow_le_pow_right₀ (by linarith) hn
  have h2 : (1 + κ) ^ 220 ≤ (1 + 2⁻¹ ^ 12) ^ 220 := pow_le_pow_left₀ (by linarith) (by linarith [C.small]) _
  refine h1.trans (h2.trans ?_)
  have h3 : (1 + (2⁻¹:ℝ) ^ 12) ^ 220 = ((1 + (2⁻¹:ℝ) ^ 12) ^ 20) ^ 11 := by rw [← pow_mul]
  have h4 : (1 + (2⁻¹:ℝ) ^ 12) ^ 20 ≤ 1.005 := by norm_num
  rw [h3]
  exact (pow_le_pow_left₀ (by positivity) h4 _).trans (by norm_num)

theorem pow100_le_flHi : (2:ℝ) ^ 100 ≤ flHi := by unfold flHi; norm_num
theorem flLo_le_sixteenth : flLo ≤ 1 / 16 := by unfold flLo; norm_num

/-- a product of the recursion -/
theorem Arith.Contract.step_prod (C : f.Contract κ) {n : ℕ} {a B y δ W : ℝ} (hn : n ≤ 200) (hW : W ≤ 262144) (ha : 0 ≤ a) (haW : a ≤ W) (hB : 0 ≤ B) (hBu : B ≤ 16 * W)
    (hδ0 : 0 ≤ δ) (hδ : δ ≤ 1 / 16) (l : Lin ((1 + κ) ^ n) δ B y) :
    ∃ p, f.r (f.r (fin a) * fin y) = fin p ∧ Lin ((1 + κ) ^ (n + 2)) (9 / 8 * (flLo * B) + 9 / 8 * (δ * a) + 2 * flLo) (a * B) p := by
  have hκ := C.pos
  have hlo := flLo_pos
  have hlo1 := flLo_le_sixteenth
  have big := pow100_le_flHi
  have hP := C.pow_le (n := 1) (by norm_num)
  rw [pow_one] at hP
  have hP2 := C.pow_le (n := 2) (by norm_num)
  have q1 := C.pow_le (n := n) (by omega)
  have q2 := C.pow_le (n := n + 1) (by omega)
  have hP0 : 0 ≤ 1 + κ := by linarith
  have hPn0 : 0 ≤ (1 + κ) ^ n := pow_nonneg hP0 n
  have hl0 : Lin 1 0 a a := by unfold Lin; simp
  obtain ⟨x, ex, lx⟩ := C.rd_lin ha (by rw [abs_of_nonneg ha]; refine le_trans ?_ big; norm_num; linarith) hl0
  rw [one_mul, mul_zero, zero_add] at lx
  have lp := lx.mul ha hB l
  have haB : a * B ≤ 262144 * (16 * 262144) := mul_le_mul (by linarith) (by linarith) hB (by norm_num)
  have haB0 := mul_nonneg ha hB
  have e1 : (1 + κ) * (1 + κ) ^ n = (1 + κ) ^ (n + 1) := by ring
  have bB : (1 + κ) * (flLo * ((1 + κ) ^ n * B)) ≤ 9 / 8 * (flLo * B) := by
    calc (1 + κ) * (flLo * ((1 + κ) ^ n * B)) = (1 + κ) ^ (n + 1) * (flLo * B) := by ring
      _ ≤ _ := mul_le_mul_of_nonneg_right q2 (mul_nonneg hlo.le hB)
  have bA : (1 + κ) * (δ * ((1 + κ) * a)) ≤ 9 / 8 * (δ * a) := by
    calc (1 + κ) * (δ * ((1 + κ) * a)) = (1 + κ) ^ 2 * (δ * a) := by ring
      _ ≤ _ := mul_le_mul_of_nonneg_right hP2 (mul_nonneg hδ0 ha)
  have bD : (1 + κ) * (flLo * δ) + flLo ≤ 2 * flLo := by
    have : (1 + κ) * (flLo * δ) ≤ 9 / 8 * (flLo * (1 / 16)) := mul_le_mul hP (mul_le_mul_of_nonneg_left hδ hlo.le) (mul_nonneg hlo.le hδ0) (by norm_num)
    linarith
  have hsz : |x * y| ≤ flHi := by
    refine (lp.abs_le haB0).trans (le_trans ?_ big)
    rw [e1]
    have s1 : (1 + κ) ^ (n + 1) * (a * B) ≤ 9 / 8 * (262144 * (16 * 262144)) := mul_le_mul q2 haB haB0 (by norm_num)
    have s2 : flLo * ((1 + κ) ^ n * B) ≤ 1 * (9 / 8 * (16 * 262144)) :=
      mul_le_mul (by linarith) (mul_le_mul q1 (by linarith) hB (by norm_num)) (mul_nonneg hPn0 hB) (by norm_num)
    have s3 : δ * ((1 + κ) * a) ≤ 1 * (9 / 8 * 262144) := mul_le_mul (by linarith) (mul_le_mul hP (by linarith) ha (by norm_num)) (mul_nonneg hP0 ha) (by norm_num)
    have s4 : flLo * δ ≤ 1 * 1 := mul_le_mul (by linarith) (by linarith) hδ0 (by norm_num)
    norm_num at s1 s2 s3 s4 ⊢
    linarith
  obtain ⟨p, ep, l'⟩ := C.rd_lin haB0 hsz lp
  refine ⟨p, by rw [ex, mul_fin, ep], l'.mono haB0 (le_of_eq (by ring)) ?_⟩
  linarith

/-- the sum of the two products, times the order -/
theorem Arith.Contract.step_sum (C : f.Contract κ) {n k : ℕ} {a c g B₁ B₂ p₁ p₂ δ W : ℝ} (hk : k + 2 ≤ 16) (hn : n ≤ 200) (hW0 : 0 < W) (hW : W ≤ 262144)
    (ha : 0 ≤ a) (hc : 0 ≤ c) (hg : a + c = g) (hgW : g ≤ W) (b₁ : 0 ≤ B₁) (b₂ : 0 ≤ B₂) (u₁ : B₁ ≤ 16 * W) (u₂ : B₂ ≤ 16 * W)
    (hδ0 : 0 ≤ δ) (hδ : δ ≤ 1 / 16)
    (L₁ : Lin ((1 + κ) ^ (n + 2)) (9 / 8 * (flLo * B₁) + 9 / 8 * (δ * a) + 2 * flLo) (a * B₁) p₁)
    (L₂ : Lin ((1 + κ) ^ (n + 2)) (9 / 8 * (flLo * B₂) + 9 / 8 * (δ * c) + 2 * flLo) (c * B₂) p₂) :
    ∃ w, f.r (f.r (fin (p₁ + p₂)) * fin ((k : ℝ) + 2)) = fin w ∧ a * B₁ + c * B₂ ≤ 262144 * (16 * 262144) ∧
      Lin ((1 + κ) ^ (n + 4)) ((2 * (32 * W * flLo) + 2 * (δ * g) + 8 * flLo) * ((k:ℝ) + 2)) ((a * B₁ + c * B₂) * ((k:ℝ) + 2)) w := by
  have hκ := C.pos
  have hlo := flLo_pos
  have hlo1 := flLo_le_sixteenth
  have big := pow100_le_flHi
  have hP := C.pow_le (n := 1) (by norm_num)
  rw [pow_one] at hP
  have q2 := C.pow_le (n := n + 2) (by omega)
  have q3 := C.pow_le (n := n + 3) (by omega)
  have g0 : 0 ≤ g := by linarith
  have LS := L₁.add L₂
  have hS0 : 0 ≤ a * B₁ + c * B₂ := add_nonneg (mul_nonneg ha b₁) (mul_nonneg hc b₂)
  have hSu : a * B₁ + c * B₂ ≤ 262144 * (16 * 262144) := by
    have h1 := mul_le_mul_of_nonneg_left u₁ ha
    have h2 := mul_le_mul_of_nonneg_left u₂ hc
    have h3 : a * B₁ + c * B₂ ≤ g * (16 * W) := by rw [← hg]; linarith
    exact h3.trans (mul_le_mul (by linarith) (by linarith) (by linarith) (by norm_num))
  generalize a * B₁ + c * B₂ = S at *
  have t1 : flLo * B₁ + flLo * B₂ ≤ 32 * W * flLo := by
    have h1 := mul_le_mul_of_nonneg_left u₁ hlo.le
    have h2 := mul_le_mul_of_nonneg_left u₂ hlo.le
    linarith
  have t2 : δ * a + δ * c = δ * g := by rw [← hg]; ring
  have t3 : 0 ≤ δ * g := mul_nonneg hδ0 g0
  have t4 : 0 ≤ 32 * W * flLo := mul_nonneg (by linarith) hlo.le
  have t5 : δ * g ≤ 1 * 262144 := mul_le_mul (by linarith) (by linarith) g0 (by norm_num)
  have t6 : 32 * W * flLo ≤ 32 * 262144 * 1 := mul_le_mul (by linarith) (by linarith) hlo.le (by norm_num)
  have LS' : Lin ((1 + κ) ^ (n + 2)) (9 / 8 * (32 * W * flLo) + 9 / 8 * (δ * g) + 4 * flLo) S (p₁ + p₂) := LS.mono hS0 le_rfl (by linarith)
  generalize hX : 32 * W * flLo = X at *
  generalize hY : δ * g = Y at *
  obtain ⟨v, ev, LV⟩ := C.rd_lin hS0 (by
    refine (LS'.abs_le hS0).trans (le_trans ?_ big)
    have : (1 + κ) ^ (n + 2) * S ≤ 9 / 8 * (262144 * (16 * 262144)) := mul_le_mul q2 hSu hS0 (by norm_num)
    norm_num at this t6 t5 ⊢
    linarith) LS'
  rw [ev, mul_fin]
  have LV' : Lin ((1 + κ) ^ (n + 3)) (3 / 2 * X + 3 / 2 * Y + 6 * flLo) S v := by
    refine LV.mono hS0 (le_of_eq (by ring)) ?_
    have := mul_le_mul_of_nonneg_right hP (show 0 ≤ 9 / 8 * X + 9 / 8 * Y + 4 * flLo by linarith)
    linarith
  have hk0 : (0:ℝ) ≤ (k:ℝ) := Nat.cast_nonneg k
  have hk2 : (0:ℝ) ≤ (k:ℝ) + 2 := by linarith
  have hk16 : (k:ℝ) + 2 ≤ 16 := by exact_mod_cast hk
  have lk : Lin 1 0 ((k:ℝ) + 2) ((k:ℝ) + 2) := by unfold Lin; simp
  have LK := LV'.mul hS0 hk2 lk
  rw [mul_one, one_mul, zero_mul, add_zero, mul_zero, add_zero] at LK
  have hSk0 : 0 ≤ S * ((k:ℝ) + 2) := mul_nonneg hS0 hk2
  have hSk : S * ((k:ℝ) + 2) ≤ 262144 * (16 * 262144) * 16 := mul_le_mul hSu hk16 hk2 (by norm_num)
  have hE0 : 0 ≤ 3 / 2 * X + 3 / 2 * Y + 6 * flLo := by linarith
  obtain ⟨w, ew, LW⟩ := C.rd_lin hSk0 (by
    refine (LK.abs_le hSk0).trans (le_trans ?_ big)
    have h1 : (1 + κ) ^ (n + 3) * (S * ((k:ℝ) + 2)) ≤ 9 / 8 * (262144 * (16 * 262144) * 16) := mul_le_mul q3 hSk hSk0 (by norm_num)
    have h2 : (3 / 2 * X + 3 / 2 * Y + 6 * flLo) * ((k:ℝ) + 2) ≤ (3 / 2 * (32 * 262144 * 1) + 3 / 2 * 262144 + 6) * 16 :=
      mul_le_mul (by linarith) hk16 hk2 (by norm_num)
    norm_num at h1 h2 ⊢
    linarith) LK
  refine ⟨w, ew, hSu, LW.mono hSk0 (le_of_eq (by ring)) ?_⟩
  have h1 := mul_le_mul_of_nonneg_right hP (mul_nonneg hE0 hk2)
  have h2 := mul_nonneg hlo.le hk0
  have h3 := mul_nonneg t4 hk2
  have h4 := mul_nonneg t3 hk2
  linarith

/-- the denominator -/
theorem Arith.Contract.step_den (C : f.Contract κ) {k : ℕ} {g G : ℝ} (hk : k + 2 ≤ 16) (hg18 : (2⁻¹:ℝ) ^ 18 ≤ g) (hgW : g ≤ 262144) (hG : |G - g| ≤ κ * g) :
    ∃ D, f.r (fin (((k : ℝ) + 1) * G)) = fin D ∧ 0 < D ∧ ((k:ℝ) + 1) * g ≤ (1 + κ) ^ 4 * D ∧ D ≤ (1 + κ) ^ 4 * (((k:ℝ) + 1) * g) := by
  have hκ := C.pos
  have big := pow100_le_flHi
  have g0 : 0 < g := lt_of_lt_of_le (by positivity) hg18
  have hk0 : (0:ℝ) ≤ (k:ℝ) := Nat.cast_nonneg k
  have hk1 : (1:ℝ) ≤ (k:ℝ) + 1 := by linarith
  have hk16 : (k:ℝ) + 2 ≤ 16 := by exact_mod_cast hk
  have eG : |((k:ℝ) + 1) * G - ((k:ℝ) + 1) * g| ≤ κ * (((k:ℝ) + 1) * g) := by
    have : ((k:ℝ) + 1) * G - ((k:ℝ) + 1) * g = ((k:ℝ) + 1) * (G - g) := by ring
    rw [this, abs_mul, abs_of_nonneg (by linarith)]
    have := mul_le_mul_of_nonneg_left hG (show (0:ℝ) ≤ (k:ℝ) + 1 by linarith)
    linarith
  have d0 : 0 < ((k:ℝ) + 1) * g := mul_pos (by linarith) g0
  have hd1 : g ≤ ((k:ℝ) + 1) * g := le_mul_of_one_le_left g0.le hk1
  have hd2 : ((k:ℝ) + 1) * g ≤ 16 * 262144 := mul_le_mul (by linarith) (by linarith) g0.le (by norm_num)
  generalize ((k:ℝ) + 1) * g = d at *
  generalize ((k:ℝ) + 1) * G = e0 at *
  have hκ4 : κ ≤ 1 / 4 := C.small.trans (by norm_num)
  rw [abs_le] at eG
  have hd18 : (2⁻¹:ℝ) ^ 20 ≤ d * (1 - κ) := by
    have h1 : (2⁻¹:ℝ) ^ 18 ≤ d := hg18.trans hd1
    have h2 : (2⁻¹:ℝ) ^ 18 * (3 / 4) ≤ d * (1 - κ) := mul_le_mul h1 (by linarith) (by norm_num) d0.le
    norm_num at h2 ⊢
    linarith
  have e20 : (0:ℝ) < 2⁻¹ ^ 20 := by positivity
  have e00 : 0 < e0 := by linarith
  obtain ⟨D, eD, rD⟩ := C.rd_norm e0 (by
      rw [abs_of_pos e00]
      have : flLo ≤ (2⁻¹:ℝ) ^ 20 := by unfold flLo; norm_num
      linarith)
    (by rw [abs_of_pos e00]
        refine le_trans ?_ big
        have : κ * d ≤ 1 / 4 * (16 * 262144) := mul_le_mul hκ4 hd2 d0.le (by norm_num)
        norm_num at this ⊢
        linarith)
  rw [abs_of_pos e00, abs_le] at rD
  have D0 : 0 < D := by have := mul_pos (show 0 < 1 - κ by linarith) e00; linarith [rD.1]
  have hDlo : (1 - κ) * ((1 - κ) * d) ≤ D := by
    have : (1 - κ) * ((1 - κ) * d) ≤ (1 - κ) * e0 := mul_le_mul_of_nonneg_left (by linarith) (by linarith)
    linarith
  have hDhi : D ≤ (1 + κ) * ((1 + κ) * d) := by
    have : (1 + κ) * e0 ≤ (1 + κ) * ((1 + κ) * d) := mul_le_mul_of_nonneg_left (by linarith) (by linarith)
    linarith
  refine ⟨D, eD, D0, ?_, ?_⟩
  · have h1 : 1 ≤ (1 + κ) ^ 2 * (1 - κ) := by
      have e : (1 + κ) ^ 2 * (1 - κ) = 1 + κ * (1 - κ - κ * κ) := by ring
      have : 0 ≤ κ * (1 - κ - κ * κ) := mul_nonneg hκ.le (by have := mul_le_mul hκ4 hκ4 hκ.le (by norm_num); linarith)
      linarith
    have h2 : 1 ≤ ((1 + κ) ^ 2 * (1 - κ)) * ((1 + κ) ^ 2 * (1 - κ)) := by
      have := mul_le_mul h1 h1 zero_le_one (by linarith)
      linarith
    calc d ≤ (((1 + κ) ^ 2 * (1 - κ)) * ((1 + κ) ^ 2 * (1 - κ))) * d := le_mul_of_one_le_left d0.le h2
      _ = (1 + κ) ^ 4 * ((1 - κ) * ((1 - κ) * d)) := by ring
      _ ≤ _ := mul_le_mul_of_nonneg_left hDlo (pow_nonneg (by linarith) _)
  · refine hDhi.trans ?_
    have : (1 + κ) * ((1 + κ) * d) = (1 + κ) ^ 2 * d := by ring
    rw [this]
    exact mul_le_mul_of_nonneg_right (pow_le_pow_right₀ (by linarith) (by norm_num)) d0.le

/-- the quotient -/
theorem Arith.Contract.step_quot (C : f.Contract κ) {n k : ℕ} {g S w D δ W : ℝ} (hk : k + 2 ≤ 16) (hn : n ≤ 200) (hW1 : 1 ≤ W) (hW : W ≤ 262144) (hWg : 1 ≤ W * g) (g0 : 0 < g)
    (hS0 : 0 ≤ S) (hSu : S ≤ 262144 * (16 * 262144)) (hδ0 : 0 ≤ δ) (hδ : δ ≤ 1 / 16) (D0 : 0 < D)
    (r1 : ((k:ℝ) + 1) * g ≤ (1 + κ) ^ 4 * D) (r2 : D ≤ (1 + κ) ^ 4 * (((k:ℝ) + 1) * g))
    (LW : Lin ((1 + κ) ^ (n + 4)) ((2 * (32 * W * flLo) + 2 * (δ * g) + 8 * flLo) * ((k:ℝ) + 2)) (S * ((k:ℝ) + 2)) w) :
    ∃ y, f.r (fin w / fin D) = fin y ∧ Lin ((1 + κ) ^ (n + 9)) (5 * δ + 512 * (W * W) * flLo) (S * ((k : ℝ) + 2) / (((k : ℝ) + 1) * g)) y := by
  have hκ := C.pos
  have hlo := flLo_pos
  have big := pow100_le_flHi
  have q4 := C.pow_le (n := 4) (by norm_num)
  have q8 := C.pow_le (n := n + 8) (by omega)
  have hk0 : (0:ℝ) ≤ (k:ℝ) := Nat.cast_nonneg k
  have hk16 : (k:ℝ) + 2 ≤ 16 := by exact_mod_cast hk
  have hk2 : (0:ℝ) ≤ (k:ℝ) + 2 := by linarith
  have hSk0 : 0 ≤ S * ((k:ℝ) + 2) := mul_nonneg hS0 hk2
  have hSk : S * ((k:ℝ) + 2) ≤ 262144 * (16 * 262144) * 16 := mul_le_mul hSu hk16 hk2 (by norm_num)
  have d0 : 0 < ((k:ℝ) + 1) * g := mul_pos (by linarith) g0
  have hWp : 0 ≤ W * flLo := mul_nonneg (by linarith) hlo.le
  have LQ := LW.div hSk0 d0 D0 (one_le_pow₀ (by linarith)) r1 r2
  have hquo : (1 + κ) ^ 4 * ((2 * (32 * W * flLo) + 2 * (δ * g) + 8 * flLo) * ((k:ℝ) + 2)) / (((k:ℝ) + 1) * g) ≤ 9 / 2 * δ + 170 * (W * W) * flLo := by
    rw [div_le_iff₀ d0]
    have hδg : 0 ≤ δ * g := mul_nonneg hδ0 g0.le
    have hX0 : 0 ≤ 2 * (32 * W * flLo) + 2 * (δ * g) + 8 * flLo := by linarith
    have h1 : (1 + κ) ^ 4 * ((2 * (32 * W * flLo) + 2 * (δ * g) + 8 * flLo) * ((k:ℝ) + 2)) ≤
        9 / 8 * ((2 * (32 * W * flLo) + 2 * (δ * g) + 8 * flLo) * (2 * ((k:ℝ) + 1))) :=
      mul_le_mul q4 (mul_le_mul_of_nonneg_left (by linarith) hX0) (mul_nonneg hX0 hk2) (by norm_num)
    refine h1.trans ?_
    have hWW : 1 ≤ W * (W * g) := by
      have := mul_le_mul hW1 hWg zero_le_one (by linarith)
      linarith
    have h2 : W * flLo ≤ W * flLo * (W * g) := le_mul_of_one_le_right hWp hWg
    have h3 : flLo ≤ flLo * (W * (W * g)) := le_mul_of_one_le_right hlo.le hWW
    have h4 : 9 / 8 * (2 * (2 * (32 * W * flLo) + 2 * (δ * g) + 8 * flLo)) ≤ (9 / 2 * δ + 170 * (W * W) * flLo) * g := by
      have e : (9 / 2 * δ + 170 * (W * W) * flLo) * g = 9 / 2 * (δ * g) + 144 * (W * flLo * (W * g)) + 26 * (flLo * (W * (W * g))) := by ring
      rw [e]; linarith
    have := mul_le_mul_of_nonneg_right h4 (show (0:ℝ) ≤ (k:ℝ) + 1 by linarith)
    linarith
  have hT0 : 0 ≤ S * ((k:ℝ) + 2) / (((k:ℝ) + 1) * g) := div_nonneg hSk0 d0.le
  have hTu : S * ((k:ℝ) + 2) / (((k:ℝ) + 1) * g) ≤ 262144 * (16 * 262144) * 16 * 262144 := by
    rw [div_le_iff₀ d0]
    have h1 : 1 ≤ 262144 * (((k:ℝ) + 1) * g) := by
      have h2 : W * g ≤ 262144 * g := mul_le_mul_of_nonneg_right hW g0.le
      have h3 := mul_nonneg hk0 g0.le
      linarith
    calc S * ((k:ℝ) + 2) ≤ 262144 * (16 * 262144) * 16 := hSk
      _ ≤ 262144 * (16 * 262144) * 16 * (262144 * (((k:ℝ) + 1) * g)) := le_mul_of_one_le_right (by norm_num) h1
      _ = _ := by ring
  generalize S * ((k:ℝ) + 2) / (((k:ℝ) + 1) * g) = T at *
  have LQ' : Lin ((1 + κ) ^ (n + 8)) (9 / 2 * δ + 170 * (W * W) * flLo) T (w / D) := LQ.mono hT0 (le_of_eq (by ring)) hquo
  have hWW0 : 0 ≤ W * W * flLo := mul_nonneg (mul_nonneg (by linarith) (by linarith)) hlo.le
  have hWW : W * W * flLo ≤ 1 := by
    have h1 : W * W ≤ 262144 * 262144 := mul_le_mul hW hW (by linarith) (by norm_num)
    have h2 : W * W * flLo ≤ 262144 * 262144 * flLo := mul_le_mul_of_nonneg_right h1 hlo.le
    refine h2.trans ?_
    unfold flLo; norm_num
  have hWW1 : flLo ≤ W * W * flLo := by
    have := mul_le_mul hW1 hW1 zero_le_one (by linarith)
    exact le_mul_of_one_le_left hlo.le (by linarith)
  obtain ⟨y, ey, LY⟩ := C.rd_lin hT0 (by
    refine (LQ'.abs_le hT0).trans (le_trans ?_ big)
    have h1 : (1 + κ) ^ (n + 8) * T ≤ 9 / 8 * (262144 * (16 * 262144) * 16 * 262144) := mul_le_mul q8 hTu hT0 (by norm_num)
    norm_num at h1 ⊢
    linarith) LQ'
  refine ⟨y, by rw [div_fin D0.ne', ey], LY.mono hT0 (le_of_eq (by ring)) ?_⟩
  have hc1 : 1 + κ ≤ 10 / 9 := by have := C.small; norm_num at this; linarith
  have := mul_le_mul_of_nonneg_right hc1 (show 0 ≤ 9 / 2 * δ + 170 * (W * W) * flLo by linarith)
  linarith

/-- one step of the recursion inside the support -/
theorem Arith.Contract.step (C : f.Contract κ) {m n k : ℕ} {a c g B₁ B₂ y₁ y₂ δ G : ℝ} (hm : m ≤ 18) (hk : k + 2 ≤ 16) (hn : n ≤ 200)
    (ha : 0 ≤ a) (hc : 0 ≤ c) (hg : a + c = g) (hg0 : 2⁻¹ ^ m ≤ g) (hg1 : g ≤ 2 ^ m) (b₁ : 0 ≤ B₁) (b₂ : 0 ≤ B₂) (u₁ : B₁ ≤ 16 * 2 ^ m) (u₂ : B₂ ≤ 16 * 2 ^ m)
    (hδ0 : 0 ≤ δ) (hδ : δ ≤ 1 / 16)
    (l₁ : Lin ((1 + κ) ^ n) δ B₁ y₁) (l₂ : Lin ((1 + κ) ^ n) δ B₂ y₂) (hG : |G - g| ≤ κ * g) :
    ∃ y, f.r (f.r (f.r (f.r (f.r (fin a) * fin y₁) + f.r (f.r (fin c) * fin y₂)) * fin ((k : ℝ) + 2)) / f.r (fin ((k : ℝ) + 1) * fin G)) = fin y ∧
      Lin ((1 + κ) ^ (n + 9)) (5 * δ + 2 ^ (2 * m + 9) * flLo) ((a * B₁ + c * B₂) * ((k : ℝ) + 2) / (((k : ℝ) + 1) * g)) y := by
  have hW1 : (1:ℝ) ≤ 2 ^ m := one_le_pow₀ (by norm_num)
  have hW : (2:ℝ) ^ m ≤ 262144 := (pow_le_pow_right₀ (by norm_num) hm).trans (by norm_num)
  have hWg : 1 ≤ 2 ^ m * g := by
    have : (2:ℝ) ^ m * 2⁻¹ ^ m ≤ 2 ^ m * g := mul_le_mul_of_nonneg_left hg0 (by positivity)
    rwa [← mul_pow, mul_inv_cancel₀ (by norm_num), one_pow] at this
  have g0 : 0 < g := lt_of_lt_of_le (by positivity) hg0
  have hg18 : (2⁻¹:ℝ) ^ 18 ≤ g := le_trans (pow_le_pow_of_le_one (by norm_num) (by norm_num) hm) hg0
  obtain ⟨p₁, e₁, L₁⟩ := C.step_prod hn hW ha (by linarith) b₁ u₁ hδ0 hδ l₁
  obtain ⟨p₂, e₂, L₂⟩ := C.step_prod hn hW hc (by linarith) b₂ u₂ hδ0 hδ l₂
  obtain ⟨w, ew, hSu, LW⟩ := C.step_sum hk hn (by linarith) hW ha hc hg hg1 b₁ b₂ u₁ u₂ hδ0 hδ L₁ L₂
  obtain ⟨D, eD, D0, r1, r2⟩ := C.step_den hk hg18 (by linarith) hG
  obtain ⟨y, ey, LY⟩ := C.step_quot hk hn hW1 hW hWg g0 (add_nonneg (mul_nonneg ha b₁) (mul_nonneg hc b₂)) hSu hδ0 hδ D0 r1 r2 LW
  refine ⟨y, ?_, ?_⟩
  · rw [e₁, e₂, add_fin, ew, mul_fin, eD, ey]
  · have hw2 : (2:ℝ) ^ (2 * m + 9) = 512 * (2 ^ m * 2 ^ m) := by rw [pow_add, two_mul, pow_add]; ring
    rw [hw2]; exact LY

theorem basisR_one (f : Arith) (t : ℕ → ℝ) (x : ℝ) (i : ℕ) : basisR f t x 1 i =
    if lt (f.r (fin (t (i + 1)) - fin (t i))) (f.rd knotEps) then 0
    else if t i ≤ x ∧ x < t (i + 1) then f.r (1 / f.r (fin (t (i + 1)) - fin (t i))) else 0 := rfl

theorem basisR_add_two (f : Arith) (t : ℕ → ℝ) (x : ℝ) (k i : ℕ) : basisR f t x (k + 2) i =
    if lt (f.r (fin (t (i + (k + 2))) - fin (t i))) (f.rd knotEps) then 0
    else f.r (f.r (f.r (f.r (f.r (fin x - fin (t i)) * basisR f t x (k + 1) i)
        + f.r (f.r (fin (t (i + (k + 2))) - fin x) * basisR f t x (k + 1) (i + 1))) * fin ((k : ℝ) + 2))
      / f.r (fin ((k : ℝ) + 1) * f.r (fin (t (i + (k + 2))) - fin (t i)))) := rfl

theorem basisR_congr {t t' : ℕ → ℝ} (x : ℝ) (k : ℕ) : ∀ i, (∀ j, i ≤ j → j ≤ i + k → t j = t' j) → basisR f t x k i = basisR f t' x k i := by
  induction k using Nat.strong_induction_on with
  | _ k ih =>
    intro i h
    match k with
    | 0 => rfl
    | 1 => rw [basisR_one, basisR_one, h i (le_refl _) (by omega), h (i+1) (by omega) (by omega)]
    | k + 2 =>
      rw [basisR_add_two, basisR_add_two, h i (le_refl _) (by omega), h (i+(k+2)) (by omega) (by omega),
        ih (k+1) (by omega) i (fun j h1 h2 => h j h1 (by omega)), ih (k+1) (by omega) (i+1) (fun j h1 h2 => h j (by omega) (by omega))]

theorem lost_pos (m k : ℕ) : 0 < lost m k := mul_pos (by positivity) flLo_pos

theorem lost_le {m k : ℕ} (hm : m ≤ 18) (hk : k ≤ 16) : lost m k ≤ 2⁻¹ ^ 17 := by
  unfold lost
  have h1 : (2:ℝ) ^ (2 * m + 9 + 4 * k) ≤ 2 ^ 109 := pow_le_pow_right₀ (by norm_num) (by omega)
  refine (mul_le_mul_of_nonneg_right h1 flLo_pos.le).trans ?_
  unfold flLo; norm_num

theorem lost_succ (m k : ℕ) : 5 * lost m k + 2 ^ (2 * m + 9) * flLo ≤ lost m (k + 1) := by
  have h := flLo_pos
  unfold lost
  have e1 : (2:ℝ) ^ (2 * m + 9 + 4 * (k + 1)) = 16 * 2 ^ (2 * m + 9 + 4 * k) := by
    rw [show 2 * m + 9 + 4 * (k + 1) = (2 * m + 9 + 4 * k) + 4 by ring, pow_add]; ring
  have e2 : (2:ℝ) ^ (2 * m + 9) ≤ 2 ^ (2 * m + 9 + 4 * k) := pow_le_pow_right₀ (by norm_num) (by omega)
  have e3 := mul_le_mul_of_nonneg_right e2 h.le
  have e4 : 0 ≤ (2:ℝ) ^ (2 * m + 9 + 4 * k) * flLo := by positivity
  rw [e1]
  linarith

/-- the induction behind C143 -/
theorem Arith.Contract.basis (C : f.Contract κ) {t : ℕ → ℝ} {m : ℕ} (h : KnotsOK t m) {x : ℝ} (hx : ∀ i, |x - t i| ≤ 2 ^ 100) (k : ℕ) (hk : k ≤ 16) :
    ∀ i, ∃ y, basisR f t x k i = fin y ∧ Lin ((1 + κ) ^ (9 * k)) (lost m k) (GW.basis t x k i) y ∧ (x < t i ∨ t (i + k) ≤ x → y = 0) := by
  have hκ := C.pos
  have hlo := flLo_pos
  induction k using Nat.strong_induction_on with
  | _ k ih =>
    intro i
    have hzero : ∀ n, Lin ((1 + κ) ^ n) (lost m k) 0 0 := by intro n; unfold Lin; simpa using (lost_pos m k).le
    match k with
    | 0 => exact ⟨0, rfl, hzero _, fun _ => rfl⟩
    | 1 =>
      rw [basisR_one, basis_one]
      rcases C.gap h i 1 with ⟨_, h1, h2⟩ | ⟨h0, h1, h2, G, eG, rG⟩
      · rw [if_pos h1, if_pos h2]
        exact ⟨0, rfl, hzero _, fun _ => rfl⟩
      · rw [if_neg h1, if_neg h2]
        by_cases hx' : t i ≤ x ∧ x < t (i + 1)
        · rw [if_pos hx', if_pos hx', eG]
          have g0 : 0 < t (i + 1) - t i := lt_of_lt_of_le (by positivity) h0
          generalize t (i + 1) - t i = g at *
          rw [abs_le] at rG
          have hκ4 : κ ≤ 1 / 4 := C.small.trans (by norm_num)
          have hκg : κ * g ≤ 1 / 4 * g := mul_le_mul_of_nonneg_right hκ4 g0.le
          have G0 : 0 < G := by linarith
          have l1 : Lin 1 0 1 1 := by unfold Lin; simp
          have lq := l1.div (r := (1 + κ) ^ 2) (e := G) zero_le_one g0 G0 (one_le_pow₀ (by linarith)) (by
              have h1 : 1 ≤ (1 + κ) ^ 2 * (1 - κ) := by
                have e : (1 + κ) ^ 2 * (1 - κ) = 1 + κ * (1 - κ - κ * κ) := by ring
                have : 0 ≤ κ * (1 - κ - κ * κ) := mul_nonneg hκ.le (by have := mul_le_mul hκ4 hκ4 hκ.le (by norm_num); linarith)
                linarith
              calc g ≤ ((1 + κ) ^ 2 * (1 - κ)) * g := le_mul_of_one_le_left g0.le h1
                _ = (1 + κ) ^ 2 * ((1 - κ) * g) := by ring
                _ ≤ _ := mul_le_mul_of_nonneg_left (by linarith) (by positivity))
            (by have : (1 + κ) * g ≤ (1 + κ) * ((1 + κ) * g) := mul_le_mul_of_nonneg_left (by have := mul_pos hκ g0; linarith) (by linarith)
                have e : (1 + κ) * ((1 + κ) * g) = (1 + κ) ^ 2 * g := by ring
                linarith)
          rw [one_mul, mul_zero, zero_div] at lq
          have hgi : 1 / g ≤ 262144 := by
            rw [div_le_iff₀ g0]
            have h18 : (2⁻¹:ℝ) ^ 18 ≤ g := le_trans (pow_le_pow_of_le_one (by norm_num) (by norm_num) h.small) h0
            norm_num at h18 ⊢
            linarith
          have hgi0 : 0 ≤ 1 / g := by positivity
          obtain ⟨y, ey, ly⟩ := C.rd_lin hgi0 (by
            refine (lq.abs_le hgi0).trans (le_trans ?_ pow100_le_flHi)
            have := mul_le_mul (C.pow_le (n := 2) (by norm_num)) hgi hgi0 (by norm_num)
            norm_num at this ⊢
            linarith) lq
          refine ⟨y, by rw [show (1 : F) = fin 1 from rfl, div_fin G0.ne', ey], ly.mono hgi0 ?_ ?_, ?_⟩
          · calc (1 + κ) ^ 2 * (1 + κ) = (1 + κ) ^ 3 := by ring
              _ ≤ _ := pow_le_pow_right₀ (by linarith) (by norm_num)
          · rw [mul_zero, zero_add]
            exact le_mul_of_one_le_left hlo.le (one_le_pow₀ (by norm_num))
          · rintro (h | h) <;> linarith [hx'.1, hx'.2]
        · rw [if_neg hx', if_neg hx']
          exact ⟨0, rfl, hzero _, fun _ => rfl⟩
    | k + 2 =>
      rw [basisR_add_two, basis_add_two]
      rcases C.gap h i (k + 2) with ⟨_, h1, h2⟩ | ⟨h0, h1, h2, G, eG, rG⟩
      · rw [if_pos h1, if_pos h2]
        exact ⟨0, rfl, hzero _, fun _ => rfl⟩
      · rw [if_neg h1, if_neg h2, eG]
        obtain ⟨y₁, e₁, l₁, z₁⟩ := ih (k + 1) (by omega) (by omega) i
        obtain ⟨y₂, e₂, l₂, z₂⟩ := ih (k + 1) (by omega) (by omega) (i + 1)
        rw [e₁, e₂, sub_fin, sub_fin]
        by_cases hsup : x < t i ∨ t (i + (k + 2)) ≤ x
        · have hz1 : x < t i ∨ t (i + (k + 1)) ≤ x := hsup.imp id fun h' => (h.mono (by omega)).trans h'
          have hz2 : x < t (i + 1) ∨ t (i + 1 + (k + 1)) ≤ x :=
            hsup.imp (fun h' => h'.trans_le (h.mono (Nat.le_succ i))) fun h' => by rw [show i + 1 + (k + 1) = i + (k + 2) by ring]; exact h'
          have b1 : GW.basis t x (k + 1) i = 0 := hz1.elim (basis_eq_zero_of_lt h.mono _ _) (basis_eq_zero_of_ge h.mono _ _)
          have b2 : GW.basis t x (k + 1) (i + 1) = 0 := hz2.elim (basis_eq_zero_of_lt h.mono _ _) (basis_eq_zero_of_ge h.mono _ _)
          rw [z₁ hz1, z₂ hz2, b1, b2]
          have hbig := pow100_le_flHi
          obtain ⟨u, eu, -⟩ := C.rd_abs (x := x - t i) ((hx i).trans hbig)
          obtain ⟨v, ev, -⟩ := C.rd_abs (x := t (i + (k + 2)) - x) (by rw [abs_sub_comm]; exact (hx _).trans hbig)
          have eu' : f.r (fin (x - t i)) = fin u := eu
          have ev' : f.r (fin (t (i + (k + 2)) - x)) = fin v := ev
          have r0 : f.r (fin 0) = fin 0 := C.rd_zero
          obtain ⟨D, eD, D0, -, -⟩ := C.step_den hk (le_trans (pow_le_pow_of_le_one (by norm_num) (by norm_num) h.small) h0)
            ((h.le i (k + 2)).trans ((pow_le_pow_right₀ (by norm_num) h.small).trans (by norm_num))) rG
          refine ⟨0, ?_, ?_, fun _ => rfl⟩
          · rw [eu', ev', mul_fin, mul_fin, mul_fin, mul_zero, mul_zero, r0, add_fin, add_zero, r0, mul_fin, zero_mul, r0, eD, div_fin D0.ne', zero_div, r0]
          · simp only [mul_zero, add_zero, zero_mul, zero_div]; exact hzero _
        · have hs := not_or.1 hsup
          have u : ∀ j, GW.basis t x (k + 1) j ≤ 16 * 2 ^ m := fun j => (basis_le h x (k + 1) j).trans
            (mul_le_mul_of_nonneg_right (by exact_mod_cast (show k + 1 ≤ 16 by omega)) (by positivity))
          obtain ⟨y, ey, ly⟩ := C.step h.small hk (show 9 * (k + 1) ≤ 200 by omega) (sub_nonneg.2 (not_lt.1 hs.1)) (sub_nonneg.2 (not_le.1 hs.2).le)
            (show x - t i + (t (i + (k + 2)) - x) = t (i + (k + 2)) - t i by ring) h0 (h.le i (k + 2))
            (basis_nonneg h.mono (k + 1) i) (basis_nonneg h.mono (k + 1) (i + 1)) (u i) (u (i + 1)) (lost_pos m (k + 1)).le
            ((lost_le h.small (by omega)).trans (by norm_num)) l₁ l₂ rG
          have hb0 := basis_nonneg h.mono (x := x) (k + 2) i
          rw [basis_add_two, if_neg h1] at hb0
          exact ⟨y, ey, ly.mono hb0 (le_of_eq (by ring)) (lost_succ m (k + 1)), fun h' => absurd h' hsup⟩

/-- `(1 + κ)^n - 1`, linearly -/
theorem Arith.Contract.pow_sub (C : f.Contract κ) {n : ℕ} (hn : n ≤ 220) : (1 + κ) ^ n - 1 ≤ 10 / 9 * (n * κ) := by
  have hκ := C.pos
  have h1 : (1 + κ) ^ n ≤ Real.exp (n * κ) := by
    rw [Real.exp_nat_mul]
    exact pow_le_pow_left₀ (by linarith) (by have := Real.add_one_le_exp κ; linarith) n
  have hn' : (n:ℝ) ≤ 220 := by exact_mod_cast hn
  have h0 : 0 ≤ (n:ℝ) * κ := by positivity
  have hs : (n:ℝ) * κ ≤ 220 * 2⁻¹ ^ 12 := mul_le_mul hn' C.small hκ.le (by norm_num)
  have h2 := Real.abs_exp_sub_one_sub_id_le (x := n * κ) (by rw [abs_of_nonneg h0]; exact hs.trans (by norm_num))
  have h3 := (le_abs_self _).trans h2
  have h4 : ((n:ℝ) * κ) ^ 2 ≤ 1 / 9 * (n * κ) := by
    rw [pow_two]
    exact mul_le_mul_of_nonneg_right (hs.trans (by norm_num)) h0
  linarith

/-- **C143.** `_basis` in rounded arithmetic.  Knots sorted, equal or at least `2^-m` apart (`m ≤ 18`), over a range of at most `2^m`; order at most 16; any point.  The returned component is a finite number,
differs from the exact component by the relative error `10 k κ` and the amount `2^(2m+9+4k) 2^-126`, and is exactly zero outside the support of the component. -/
theorem C143_basis (C : f.Contract κ) {t : ℕ → ℝ} {m k : ℕ} (h : KnotsOK t m) (hk : k ≤ 16) {x : ℝ} (hx : ∀ i, |x - t i| ≤ 2 ^ 100) (i : ℕ) :
    ∃ y, basisR f t x k i = fin y ∧ |y - basis t x k i| ≤ 10 * k * κ * basis t x k i + 2 ^ (2 * m + 9 + 4 * k) * 2⁻¹ ^ 126 ∧ (x < t i ∨ t (i + k) ≤ x → y = 0) := by
  obtain ⟨y, ey, ly, z⟩ := C.basis h hx k hk i
  refine ⟨y, ey, ?_, z⟩
  refine (ly.mono (basis_nonneg h.mono k i) le_rfl le_rfl).trans (add_le_add (mul_le_mul_of_nonneg_right ?_ (basis_nonneg h.mono k i)) le_rfl)
  have := C.pow_sub (n := 9 * k) (by omega)
  push_cast at this
  linarith

/-! ### the design matrix of `BSpline` -/

/-- What is asked of a spline object: as many knots as `__init__` asserts, sorted, equal or at least `2^-m` apart, over a range of at most `2^m`; order 1 to 16. -/
structure Spline.KnotsOK (s : Spline) (m : ℕ) : Prop where
  len : s.knots.len = s.N + s.order
  mono : ∀ i j, i ≤ j → j < s.knots.len → s.knots.get i ≤ s.knots.get j
  gap : ∀ i, i + 1 < s.knots.len → s.knots.get (i + 1) - s.knots.get i = 0 ∨ 2⁻¹ ^ m ≤ s.knots.get (i + 1) - s.knots.get i
  range : ∀ i, i < s.knots.len → s.knots.get i - s.knots.get 0 ≤ 2 ^ m
  small : m ≤ 18
  order : 1 ≤ s.order ∧ s.order ≤ 16

theorem Spline.KnotsOK.clamp {s : Spline} {m : ℕ} (h : s.KnotsOK m) : GW.KnotsOK (clampIdx s.knots.len s.knots.get) m where
  mono := clampIdx_mono h.mono (by have := h.len; have := h.order; omega)
  gap i := by
    by_cases hi : i + 1 < s.knots.len
    · rw [clampIdx_eq hi, clampIdx_eq (by omega)]; exact h.gap i hi
    · left; unfold clampIdx
      rw [show min (i + 1) (s.knots.len - 1) = min i (s.knots.len - 1) by omega, sub_self]
  range i := by
    have := h.len
    have := h.order
    rw [clampIdx_eq (j := 0) (by omega)]
    exact h.range _ (by omega)
  small := h.small

theorem Spline.bBase_nonneg {s : Spline} {m : ℕ} (h : s.KnotsOK m) {i : ℕ} (hi : i < s.N) (x : ℝ) : 0 ≤ s.bBase i x := by
  have hl := h.len
  unfold Spline.bBase
  rw [basis_clamp (n := s.knots.len) (by omega)]
  refine mul_nonneg (div_nonneg (sub_nonneg.2 (h.mono _ _ (by omega) (by omega))) (Nat.cast_nonneg _)) (basis_nonneg h.clamp.mono _ _)

/-- the amount lost by underflow in a B-spline component of order `k` -/
def lostB (m k : ℕ) : ℝ := 2 ^ (3 * m + 12 + 4 * k) * flLo

theorem lostB_pos (m k : ℕ) : 0 < lostB m k := mul_pos (by positivity) flLo_pos

theorem Arith.Contract.bBase (C : f.Contract κ) {s : Spline} {m : ℕ} (h : s.KnotsOK m) {x : ℝ} (hx : ∀ j < s.knots.len, |x - s.knots.get j| ≤ 2 ^ 100) {i : ℕ} (hi : i < s.N) :
    ∃ y, s.bBaseR f i x = fin y ∧ Lin ((1 + κ) ^ (9 * s.order + 3)) (lostB m s.order) (s.bBase i x) y := by
  have hκ := C.pos
  have hlo := flLo_pos
  have hl := h.len
  have hx' : ∀ j, |x - clampIdx s.knots.len s.knots.get j| ≤ 2 ^ 100 := fun j => hx _ (by have := h.order; omega)
  obtain ⟨y, ey, ly, z⟩ := C.basis h.clamp hx' s.order h.order.2 i
  have hB0 := basis_nonneg h.clamp.mono (x := x) s.order i
  have hBu := basis_le h.clamp x s.order i
  have e1 : clampIdx s.knots.len s.knots.get i = s.knots.get i := clampIdx_eq (by omega)
  have e2 : clampIdx s.knots.len s.knots.get (i + s.order) = s.knots.get (i + s.order) := clampIdx_eq (by omega)
  have hg := C.gap h.clamp i s.order
  have hle := h.clamp.le i s.order
  have ek : basisR f s.knots.get x s.order i = fin y := by
    rw [← ey]; exact basisR_congr x s.order i fun j _ hj => (clampIdx_eq (by omega)).symm
  unfold Spline.bBaseR Spline.bBase
  rw [basis_clamp (n := s.knots.len) (by omega), ek]
  rw [e1, e2] at hg z hle
  generalize GW.basis (clampIdx s.knots.len s.knots.get) x s.order i = B at *
  have ko : (1:ℝ) ≤ (s.order : ℝ) := by exact_mod_cast h.order.1
  have k16 : (s.order : ℝ) ≤ 16 := by exact_mod_cast h.order.2
  rcases hg with ⟨h0, -, -⟩ | ⟨h0, -, -, G, eG, rG⟩
  · have y0 : y = 0 := z (by rcases lt_or_ge x (s.knots.get i) with h' | h'
                             · exact Or.inl h'
                             · right; linarith)
    have r0 : f.r (fin 0) = fin 0 := C.rd_zero
    refine ⟨0, ?_, ?_⟩
    · rw [y0, sub_fin, h0, r0, div_fin (by linarith), zero_div, r0, mul_fin, mul_zero, r0]
    · rw [h0, zero_div, zero_mul]; unfold Lin; simpa using (lostB_pos m s.order).le
  · rw [eG, div_fin (by linarith)]
    have hW1 : (1:ℝ) ≤ 2 ^ m := one_le_pow₀ (by norm_num)
    have hW : (2:ℝ) ^ m ≤ 262144 := (pow_le_pow_right₀ (by norm_num) h.small).trans (by norm_num)
    have g0 : 0 < s.knots.get (i + s.order) - s.knots.get i := lt_of_lt_of_le (by positivity) h0
    have lG : Lin (1 + κ) 0 (s.knots.get (i + s.order) - s.knots.get i) G := by unfold Lin; linarith
    generalize s.knots.get (i + s.order) - s.knots.get i = g at *
    have lq := lG.div (r := 1) g0.le (show (0:ℝ) < s.order by linarith) (show (0:ℝ) < s.order by linarith) le_rfl (by simp) (by simp)
    rw [mul_one, mul_zero, zero_div] at lq
    have hq0 : 0 ≤ g / s.order := div_nonneg g0.le (by linarith)
    have hqW : g / s.order ≤ 2 ^ m := (div_le_self g0.le ko).trans hle
    have big := pow100_le_flHi
    have hP := C.pow_le (n := 1) (by norm_num)
    rw [pow_one] at hP
    obtain ⟨u, eu, lu⟩ := C.rd_lin hq0 (by
      refine (lq.abs_le hq0).trans (le_trans ?_ big)
      have := mul_le_mul hP (hqW.trans hW) hq0 (by norm_num)
      norm_num at this ⊢
      linarith) lq
    rw [mul_zero, zero_add] at lu
    rw [eu, mul_fin]
    have lp := lu.mul hq0 hB0 ly
    have hBW : B ≤ 16 * 2 ^ m := hBu.trans (mul_le_mul_of_nonneg_right k16 (by positivity))
    have hlost := lost_le (m := m) (k := s.order) h.small h.order.2
    have hlost0 := lost_pos m s.order
    have q2 := C.pow_le (n := 2) (by norm_num)
    have qn := C.pow_le (n := 9 * s.order) (by have := h.order.2; omega)
    have qn2 := C.pow_le (n := 9 * s.order + 2) (by have := h.order.2; omega)
    have hpn : 0 ≤ (1 + κ) ^ (9 * s.order) := by positivity
    have d1 : flLo * ((1 + κ) ^ (9 * s.order) * B) ≤ flLo * (9 / 8 * (16 * 2 ^ m)) :=
      mul_le_mul_of_nonneg_left (mul_le_mul qn hBW hB0 (by norm_num)) hlo.le
    have d2 : lost m s.order * ((1 + κ) * (1 + κ) * (g / s.order)) ≤ lost m s.order * (9 / 8 * 2 ^ m) := by
      rw [← pow_two]
      exact mul_le_mul_of_nonneg_left (mul_le_mul q2 hqW hq0 (by norm_num)) hlost0.le
    have d3 : flLo * lost m s.order ≤ flLo * 1 := mul_le_mul_of_nonneg_left (hlost.trans (by norm_num)) hlo.le
    have hT0 : 0 ≤ g / s.order * B := mul_nonneg hq0 hB0
    have hT : g / s.order * B ≤ 262144 * (16 * 262144) := mul_le_mul (hqW.trans hW) (by linarith) hB0 (by norm_num)
    have hls : 2 ^ 13 * (2 ^ m * flLo) ≤ lost m s.order := by
      unfold lost
      rw [← mul_assoc, ← pow_add]
      exact mul_le_mul_of_nonneg_right (pow_le_pow_right₀ (by norm_num) (by have := h.order.1; omega)) hlo.le
    have hls2 : lost m s.order ≤ lost m s.order * 2 ^ m := le_mul_of_one_le_right hlost0.le hW1
    have hls3 : flLo ≤ 2 ^ m * flLo := le_mul_of_one_le_left hlo.le hW1
    have hls4 : lost m s.order * 2 ^ m ≤ 2⁻¹ ^ 17 * 262144 := mul_le_mul hlost hW (by positivity) (by positivity)
    have hls0 : 0 ≤ 2 ^ m * flLo := by positivity
    have lp' : Lin ((1 + κ) ^ (9 * s.order + 2)) (2 * (lost m s.order * 2 ^ m)) (g / s.order * B) (u * y) := by
      refine lp.mono hT0 (le_of_eq (by ring)) ?_
      norm_num at hls
      linarith
    obtain ⟨v, ev, lv⟩ := C.rd_lin hT0 (by
      refine (lp'.abs_le hT0).trans (le_trans ?_ big)
      have := mul_le_mul qn2 hT hT0 (by norm_num)
      norm_num at this hls4 ⊢
      linarith) lp'
    refine ⟨v, ev, lv.mono hT0 (le_of_eq (by ring)) ?_⟩
    have hb : lostB m s.order = 8 * (lost m s.order * 2 ^ m) := by
      unfold lostB lost
      rw [show 3 * m + 12 + 4 * s.order = (2 * m + 9 + 4 * s.order) + m + 3 by ring, pow_add, pow_add]; ring
    rw [hb]
    have := mul_le_mul_of_nonneg_right hP (show 0 ≤ 2 * (lost m s.order * 2 ^ m) by positivity)
    norm_num at hls
    linarith

/-- **C143**, design matrix: every entry of `BSpline.bases(xs)` in rounded arithmetic is a finite number with relative error `14 k κ`, up to the amount `2^(3m+12+4k) 2^-126`; rows outside the range are exactly zero. -/
theorem C143_design (C : f.Contract κ) {s : Spline} {m : ℕ} (h : s.KnotsOK m) {x : ℝ} (hx : ∀ j < s.knots.len, |x - s.knots.get j| ≤ 2 ^ 100) {i : ℕ} (hi : i < s.N) :
    ∃ y, s.bBasesR f i x = fin y ∧ |y - s.bBases i x| ≤ 14 * s.order * κ * s.bBases i x + 2 ^ (3 * m + 12 + 4 * s.order) * 2⁻¹ ^ 126 ∧ (s.outside x → y = 0) := by
  unfold Spline.bBasesR Spline.bBases
  by_cases ho : s.outside x
  · rw [if_pos ho, if_pos ho]
    exact ⟨0, rfl, by simp only [sub_self, abs_zero, mul_zero, zero_add]; positivity, fun _ => rfl⟩
  · rw [if_neg ho, if_neg ho]
    obtain ⟨y, ey, ly⟩ := C.bBase h hx hi
    refine ⟨y, ey, ?_, fun h => absurd h ho⟩
    refine (ly.mono (s.bBase_nonneg h hi x) le_rfl le_rfl).trans (add_le_add (mul_le_mul_of_nonneg_right ?_ (s.bBase_nonneg h hi x)) le_rfl)
    have := C.pow_sub (n := 9 * s.order + 3) (by have := h.order.2; omega)
    have ko : (1:ℝ) ≤ (s.order : ℝ) := by exact_mod_cast h.order.1
    push_cast at this
    have hκ := C.pos
    nlinarith

end GW
end
