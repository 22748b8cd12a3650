import Verif.Props.RoundingSpline
import Verif.Props.RoundingPowerlaw
import Verif.Props.SplineBasis

/-! # C144: the normalised exponential spline (`LogYBSpline`) in rounded arithmetic -/

open Finset
noncomputable section
open Classical
namespace GW
open F

/-- `b` is `a` up to the amount `(q - 1) S + δ`, where `S` bounds `|a|` -/
def SLin (q δ S a b : ℝ) : Prop := |a| ≤ S ∧ |b - a| ≤ (q - 1) * S + δ

theorem SLin.abs_le {q δ S a b : ℝ} (h : SLin q δ S a b) : |b| ≤ q * S + δ := by
  have : b = (b - a) + a := by ring
  rw [this]
  refine (abs_add_le _ _).trans ?_
  linarith [h.1, h.2]

theorem SLin.mono {q q' δ δ' S a b : ℝ} (h : SLin q δ S a b) (hq : q ≤ q') (hδ : δ ≤ δ') : SLin q' δ' S a b :=
  ⟨h.1, h.2.trans (add_le_add (mul_le_mul_of_nonneg_right (by linarith) ((abs_nonneg a).trans h.1)) hδ)⟩

theorem SLin.add {q δ δ' S S' a b c d : ℝ} (h : SLin q δ S a b) (h' : SLin q δ' S' c d) : SLin q (δ + δ') (S + S') (a + c) (b + d) := by
  refine ⟨(abs_add_le _ _).trans (add_le_add h.1 h'.1), ?_⟩
  have : b + d - (a + c) = (b - a) + (d - c) := by ring
  rw [this]
  refine (abs_add_le _ _).trans ?_
  linarith [h.2, h'.2]

variable {f : Arith} {κ : ℝ}

theorem Arith.Contract.rd_slin (C : f.Contract κ) {q δ S a b : ℝ} (hb : |b| ≤ flHi) (h : SLin q δ S a b) :
    ∃ y, f.r (fin b) = fin y ∧ SLin (q * (1 + κ)) ((1 + κ) * δ + flLo) S a y := by
  have hκ := C.pos
  have hlo := flLo_pos
  have key : ∃ y, f.rd b = fin y ∧ |y - b| ≤ κ * |b| + flLo := by
    by_cases h0 : flLo ≤ |b|
    · obtain ⟨y, hy, e⟩ := C.rd_norm b h0 hb
      exact ⟨y, hy, by linarith⟩
    · obtain ⟨y, hy, e⟩ := C.rd_sub b (not_le.1 h0)
      exact ⟨y, hy, by have := mul_nonneg hκ.le (abs_nonneg b); linarith⟩
  obtain ⟨y, hy, e⟩ := key
  refine ⟨y, hy, h.1, ?_⟩
  have hab := mul_le_mul_of_nonneg_left h.abs_le hκ.le
  have : y - a = (y - b) + (b - a) := by ring
  rw [this]
  refine (abs_add_le _ _).trans ?_
  linarith [h.2]

/-- a sum of numbers of any sign, in any order -/
theorem Arith.Contract.sum_slin (C : f.Contract κ) {n : ℕ} {a : Fin n → F} {y x S : Fin n → ℝ} {δ : ℝ} (hδ : 0 ≤ δ) (ha : ∀ i, a i = fin (y i)) {p D : ℕ}
    (hl : ∀ i, SLin ((1 + κ) ^ p) δ (S i) (x i) (y i)) (hpD : p + D ≤ 220) (t : RTree n) (hD : t.depth ≤ D) {B : ℝ} (hB : 2 * t.total S + 2 * (t.leaves.length * (δ + flLo)) ≤ B) (hBhi : B ≤ flHi) :
    ∃ s, f.sum a t = fin s ∧ SLin ((1 + κ) ^ (p + D)) (2 * (t.leaves.length * (δ + flLo))) (t.total S) (t.total x) s := by
  have hκ := C.pos
  have hlo := flLo_pos
  have hS0 : ∀ i, 0 ≤ S i := fun i => (abs_nonneg _).trans (hl i).1
  have key : ∀ t : RTree n, ∀ j : ℕ, t.depth ≤ j → j ≤ D → 2 * t.total S + 2 * (t.leaves.length * (δ + flLo)) ≤ B →
      ∃ s, f.sum a t = fin s ∧ SLin ((1 + κ) ^ (p + j)) ((1 + κ) ^ j * (t.leaves.length * δ + (t.leaves.length - 1) * flLo)) (t.total S) (t.total x) s := by
    intro t
    induction t with
    | leaf i =>
      intro j _ _ _
      refine ⟨y i, by simp [Arith.sum, ha], ?_⟩
      simp only [RTree.total_leaf, RTree.leaves, List.length_singleton, Nat.cast_one, one_mul, sub_self, zero_mul, add_zero]
      exact (hl i).mono (pow_le_pow_right₀ (by linarith) (by omega)) (le_mul_of_one_le_left hδ (one_le_pow₀ (by linarith)))
    | node l r ihl ihr =>
      intro j hj hjD hB'
      obtain ⟨j, rfl⟩ : ∃ j', j = j' + 1 := by cases j with | zero => simp [RTree.depth] at hj | succ k => exact ⟨k, rfl⟩
      simp only [RTree.depth, Nat.add_le_add_iff_right, max_le_iff] at hj
      have hlen : ((RTree.node l r).leaves.length : ℝ) = l.leaves.length + r.leaves.length := by simp [RTree.leaves]
      rw [hlen, RTree.total_node] at hB'
      rw [hlen, RTree.total_node, RTree.total_node]
      have ll : (1:ℝ) ≤ l.leaves.length := by exact_mod_cast l.length_pos
      have lr : (1:ℝ) ≤ r.leaves.length := by exact_mod_cast r.length_pos
      have tl := RTree.total_nonneg hS0 l
      have tr := RTree.total_nonneg hS0 r
      have m1 : 0 ≤ l.leaves.length * (δ + flLo) := mul_nonneg (by linarith) (by linarith)
      have m2 : 0 ≤ r.leaves.length * (δ + flLo) := mul_nonneg (by linarith) (by linarith)
      obtain ⟨u, eu, lu⟩ := ihl j hj.1 (by omega) (by linarith)
      obtain ⟨v, ev, lv⟩ := ihr j hj.2 (by omega) (by linarith)
      have lw := lu.add lv
      have q1 := C.pow_le (n := p + j) (by omega)
      have q2 := C.pow_le (n := j) (by omega)
      have c0 : 0 ≤ l.leaves.length * δ + (l.leaves.length - 1) * flLo + (r.leaves.length * δ + (r.leaves.length - 1) * flLo) := by
        have h1 := mul_nonneg (show (0:ℝ) ≤ l.leaves.length by linarith) hδ
        have h2 := mul_nonneg (show (0:ℝ) ≤ r.leaves.length by linarith) hδ
        have h3 := mul_nonneg (show (0:ℝ) ≤ l.leaves.length - 1 by linarith) hlo.le
        have h4 := mul_nonneg (show (0:ℝ) ≤ r.leaves.length - 1 by linarith) hlo.le
        linarith
      rw [← mul_add] at lw
      have hsz : |u + v| ≤ flHi := by
        refine lw.abs_le.trans (le_trans ?_ hBhi)
        have h1 := mul_le_mul_of_nonneg_right q1 (show 0 ≤ l.total S + r.total S by linarith)
        have h2 := mul_le_mul_of_nonneg_right q2 c0
        linarith
      obtain ⟨w, ew, lw'⟩ := C.rd_slin hsz lw
      refine ⟨w, by simp [Arith.sum, eu, ev, ew], lw'.mono (le_of_eq (by ring)) ?_⟩
      have e : (1 + κ) ^ (j + 1) * ((l.leaves.length + r.leaves.length) * δ + (l.leaves.length + r.leaves.length - 1) * flLo) =
          (1 + κ) * ((1 + κ) ^ j * (l.leaves.length * δ + (l.leaves.length - 1) * flLo + (r.leaves.length * δ + (r.leaves.length - 1) * flLo))) + (1 + κ) ^ (j + 1) * flLo := by ring
      rw [e]
      have : 1 * flLo ≤ (1 + κ) ^ (j + 1) * flLo := mul_le_mul_of_nonneg_right (one_le_pow₀ (by linarith)) hlo.le
      linarith
  obtain ⟨s, es, ls⟩ := key t D hD le_rfl hB
  refine ⟨s, es, ls.mono le_rfl ?_⟩
  have ll : (1:ℝ) ≤ t.leaves.length := by exact_mod_cast t.length_pos
  have q2 := C.pow_le (n := D) (by omega)
  have h1 := mul_nonneg (show (0:ℝ) ≤ t.leaves.length by linarith) hδ
  have h3 := mul_nonneg (show (0:ℝ) ≤ t.leaves.length - 1 by linarith) hlo.le
  have := mul_le_mul_of_nonneg_right q2 (show 0 ≤ t.leaves.length * δ + (t.leaves.length - 1) * flLo by linarith)
  linarith

/-- What is asked of spline, coefficients and orders of summation: the coefficients are at most `A ≤ 128` in absolute value, the components add up to at most one at the points used,
and the number of components times the underflow of one is at most one rounding unit. -/
structure Spline.DensityOK (s : Spline) (m : ℕ) (o : RTree s.N) (D : ℕ) (c : ℕ → ℝ) (A κ : ℝ) : Prop where
  knots : s.KnotsOK m
  covers : o.Covers
  depth : o.depth ≤ D
  terms : 9 * s.order + 4 + D ≤ 220
  coefs : ∀ i < s.N, |c i| ≤ A
  big : A ≤ 128
  under : s.N * (2 ^ (3 * m + 21 + 4 * s.order) * 2⁻¹ ^ 126) ≤ κ

/-- a point of the range where the components add up to at most one -/
structure Spline.Inside (s : Spline) (x : ℝ) : Prop where
  inside : ¬ s.outside x
  near : ∀ j < s.knots.len, |x - s.knots.get j| ≤ 2 ^ 100
  unit : ∑ i ∈ range s.N, s.bBases i x ≤ 1

/-- the exact exponent of `LogYBSpline` -/
def Spline.expo (s : Spline) (c : ℕ → ℝ) (x : ℝ) : ℝ := ∑ i ∈ range s.N, s.bBases i x * c i

theorem Arith.Contract.expo (C : f.Contract κ) {s : Spline} {m D : ℕ} {o : RTree s.N} {c : ℕ → ℝ} {A : ℝ} (h : s.DensityOK m o D c A κ) {x : ℝ} (hx : s.Inside x) :
    ∃ e, einsumR f o (fun i => s.logYBasesR f i x) (fun i => fin (c i)) = fin e ∧ |e - s.expo c x| ≤ (10 * s.order + 5 + 2 * D) * κ * A + κ ∧ |s.expo c x| ≤ A := by
  have hκ := C.pos
  have hlo := flLo_pos
  have hl := h.knots.len
  by_cases hN : s.N = 0
  · exfalso
    have : ∀ t : RTree s.N, False := by
      intro t
      induction t with
      | leaf i => exact absurd i.2 (by omega)
      | node _ _ h _ => exact h
    exact this o
  have hA0 : 0 ≤ A := (abs_nonneg _).trans (h.coefs 0 (by omega))
  have big := pow100_le_flHi
  have hlostB0 := lostB_pos m s.order
  have ko : (1:ℝ) ≤ (s.order : ℝ) := by exact_mod_cast h.knots.order.1
  have hN1 : (1:ℝ) ≤ s.N := by exact_mod_cast Nat.one_le_iff_ne_zero.2 hN
  have hunder : s.N * (512 * lostB m s.order) ≤ κ := by
    refine le_trans (le_of_eq ?_) h.under
    unfold lostB
    have : flLo = 2⁻¹ ^ 126 := rfl
    rw [this, show 3 * m + 21 + 4 * s.order = (3 * m + 12 + 4 * s.order) + 9 by ring, pow_add]
    ring
  have hflB : flLo ≤ lostB m s.order := le_mul_of_one_le_left hlo.le (one_le_pow₀ (by norm_num))
  have hlB : 512 * lostB m s.order ≤ 1 := by
    have h1 : 512 * lostB m s.order ≤ s.N * (512 * lostB m s.order) := le_mul_of_one_le_left (by linarith) hN1
    have := C.small
    norm_num at this
    linarith
  have hAb := h.big
  -- one product
  have prod : ∀ i : Fin s.N, ∃ y, f.r (s.logYBasesR f i x * fin (c i)) = fin y ∧
      SLin ((1 + κ) ^ (9 * s.order + 4)) (150 * lostB m s.order) (s.bBases i x * A) (s.bBases i x * c i) y := by
    intro i
    obtain ⟨b, eb, lb⟩ := C.bBase h.knots hx.near i.2
    have e1 : s.logYBasesR f i x = fin b := by
      unfold Spline.logYBasesR Spline.bBasesR
      rw [if_neg hx.inside, if_neg hx.inside, eb]
    have e2 : s.bBases i x = s.bBase i x := by unfold Spline.bBases; rw [if_neg hx.inside]
    have hB0 : 0 ≤ s.bBase i x := s.bBase_nonneg h.knots i.2 x
    have hB1 : s.bBase i x ≤ 1 := by
      rw [← e2]
      refine le_trans ?_ hx.unit
      exact single_le_sum (f := fun j => s.bBases j x) (fun j hj => by
        unfold Spline.bBases; rw [if_neg hx.inside]; exact s.bBase_nonneg h.knots (mem_range.1 hj) x) (mem_range.2 i.2)
    have hc := h.coefs i i.2
    rw [e1, e2, mul_fin]
    have sl : SLin ((1 + κ) ^ (9 * s.order + 3)) (128 * lostB m s.order) (s.bBase i x * A) (s.bBase i x * c i) (b * c i) := by
      constructor
      · rw [abs_mul, abs_of_nonneg hB0]; exact mul_le_mul_of_nonneg_left hc hB0
      · have e : b * c i - s.bBase i x * c i = (b - s.bBase i x) * c i := by ring
        rw [e, abs_mul]
        have h1 : |b - s.bBase i x| * |c i| ≤ (((1 + κ) ^ (9 * s.order + 3) - 1) * s.bBase i x + lostB m s.order) * A :=
          mul_le_mul lb hc (abs_nonneg _) ((abs_nonneg _).trans lb)
        have h2 := mul_le_mul_of_nonneg_left hAb hlostB0.le
        linarith
    obtain ⟨y, ey, ly⟩ := C.rd_slin (by
      refine sl.abs_le.trans (le_trans ?_ big)
      have h1 : s.bBase i x * A ≤ 1 * 128 := mul_le_mul hB1 hAb hA0 (by norm_num)
      have h2 := mul_le_mul (C.pow_le (n := 9 * s.order + 3) (by have := h.knots.order.2; omega)) h1 (mul_nonneg hB0 hA0) (by norm_num)
      norm_num at h2 ⊢
      linarith) sl
    refine ⟨y, ey, ly.mono (le_of_eq (by ring)) ?_⟩
    have hP := C.pow_le (n := 1) (by norm_num)
    rw [pow_one] at hP
    have := mul_le_mul_of_nonneg_right hP (show 0 ≤ 128 * lostB m s.order by linarith)
    linarith
  choose y ey ly using prod
  have htS : o.total (fun i : Fin s.N => s.bBases i x * A) = (∑ i ∈ range s.N, s.bBases i x) * A := by
    rw [h.covers.total, ← sum_mul, Finset.sum_range]
  have htx : o.total (fun i : Fin s.N => s.bBases i x * c i) = s.expo c x := by
    rw [h.covers.total]; unfold Spline.expo; rw [Finset.sum_range]
  have hSA : (∑ i ∈ range s.N, s.bBases i x) * A ≤ A := by
    have := mul_le_mul_of_nonneg_right hx.unit hA0
    linarith
  have hlen : (o.leaves.length : ℝ) = s.N := by rw [h.covers.length]
  have hδn : s.N * (150 * lostB m s.order + flLo) ≤ κ / 2 := by
    have : s.N * (150 * lostB m s.order + flLo) ≤ s.N * (151 * lostB m s.order) := mul_le_mul_of_nonneg_left (by linarith) (by linarith)
    linarith
  have hκ1 : κ ≤ 1 := C.small.trans (by norm_num)
  obtain ⟨e, ee, le⟩ := C.sum_slin (a := fun i : Fin s.N => f.r (s.logYBasesR f i x * fin (c i))) (δ := 150 * lostB m s.order) (by linarith) ey ly (D := D) h.terms o h.depth
    (B := 2 ^ 100) (by rw [htS, hlen]; norm_num; linarith) big
  rw [htS, htx, hlen] at le
  refine ⟨e, ee, ?_, le.1.trans hSA⟩
  refine le.2.trans ?_
  have h1 : ((1 + κ) ^ (9 * s.order + 4 + D) - 1) * ((∑ i ∈ range s.N, s.bBases i x) * A) ≤ 10 / 9 * (((9 * s.order + 4 + D : ℕ) : ℝ) * κ) * A :=
    mul_le_mul (C.pow_sub h.terms) hSA ((abs_nonneg _).trans le.1) (by positivity)
  push_cast at h1
  have h2 : 0 ≤ κ * A := mul_nonneg hκ.le hA0
  have h3 : 0 ≤ (D:ℝ) * (κ * A) := mul_nonneg (Nat.cast_nonneg _) h2
  nlinarith

/-- the rounded exponential spline before normalisation -/
theorem C144_project (C : f.Contract κ) {s : Spline} {m D : ℕ} {o : RTree s.N} {c : ℕ → ℝ} {A : ℝ} (h : s.DensityOK m o D c A κ) {x : ℝ} (hx : s.Inside x)
    (hA : A ≤ 78) (hε : (10 * s.order + 5 + 2 * D) * κ * A + κ ≤ 1) :
    ∃ y, s.logYProjectR f o (fun i => fin (c i)) x = fin y ∧ Within ((10 * s.order + 5 + 2 * D) * κ * A + 2 * κ) (Real.exp (∑ i ∈ range s.N, s.bBases i x * c i)) y := by
  obtain ⟨e, ee, he, ha⟩ := C.expo h hx
  have hb : |e| ≤ 80 := by
    have : e = (e - s.expo c x) + s.expo c x := by ring
    rw [this]
    refine (abs_add_le _ _).trans ?_
    linarith
  obtain ⟨y, ey, wy⟩ := C.exp_norm e hb
  refine ⟨y, ?_, ?_⟩
  · unfold Spline.logYProjectR
    rw [ee]; exact ey
  · have := (Within.of_abs_log he).trans wy
    refine this.mono (by linarith) (Real.exp_pos _).le

theorem exp_thirty_le : Real.exp 30 ≤ 2 ^ 44 := by
  have h : Real.exp 1 ≤ 2.7183 := by have := Real.exp_one_lt_d9; linarith
  have e : Real.exp 30 = Real.exp 1 ^ 30 := by rw [← Real.exp_nat_mul]; norm_num
  rw [e]
  exact (pow_le_pow_left₀ (Real.exp_pos _).le h 30).trans (by norm_num)

theorem exp_bounds {e A : ℝ} (hA : A ≤ 30) (h : |e| ≤ A) : (2⁻¹:ℝ) ^ 44 ≤ Real.exp e ∧ Real.exp e ≤ 2 ^ 44 := by
  have h1 := abs_le.1 (h.trans hA)
  constructor
  · have h2 : Real.exp (-30) ≤ Real.exp e := Real.exp_le_exp.2 h1.1
    refine le_trans ?_ h2
    rw [Real.exp_neg, inv_pow]
    exact inv_anti₀ (Real.exp_pos _) exp_thirty_le
  · exact (Real.exp_le_exp.2 h1.2).trans exp_thirty_le

theorem normal3_pow {y : ℝ} (h1 : (2⁻¹:ℝ) ^ 122 ≤ y) (h2 : y ≤ 2 ^ 122) : Normal3 y := by
  have h0 : 0 < y := lt_of_lt_of_le (by positivity) h1
  rw [Normal3, abs_of_pos h0]
  constructor
  · refine le_trans ?_ h1; unfold flLo; norm_num
  · have : 3 * (2:ℝ) ^ 122 ≤ flHi := by unfold flHi; norm_num
    linarith

/-- an operation whose exact result is known up to a factor, rounded -/
theorem Arith.Contract.rel_round (C : f.Contract κ) {ε x y : ℝ} (h : Rel ε x y) (hε : ε ≤ 1) (h1 : (2⁻¹:ℝ) ^ 122 ≤ x) (h2 : x ≤ 2 ^ 122) :
    ∃ z, f.r (fin y) = fin z ∧ Rel (ε + 2 * κ) x z := by
  obtain ⟨z, ez, rz⟩ := C.rd_rel (h.normal hε (normal3_pow h1 h2))
  exact ⟨z, ez, h.trans rz⟩

theorem Rel.pos {ε x y : ℝ} (h : Rel ε x y) (hx : 0 < x) : 0 < y := by
  obtain ⟨θ, -, rfl⟩ := h; exact mul_pos hx (Real.exp_pos _)

theorem RTree.total_within {n : ℕ} {ε : ℝ} {x y : Fin n → ℝ} (h : ∀ i, Within ε (x i) (y i)) (t : RTree n) : Within ε (t.total x) (t.total y) := by
  induction t with
  | leaf i => simpa using h i
  | node l r hl hr => rw [RTree.total_node, RTree.total_node]; exact hl.add hr

theorem RTree.total_le {n : ℕ} {x : Fin n → ℝ} {u : ℝ} (h : ∀ i, x i ≤ u) (t : RTree n) : t.total x ≤ t.leaves.length * u := by
  induction t with
  | leaf i => simpa [RTree.leaves] using h i
  | node l r hl hr => rw [RTree.total_node]; simp only [RTree.leaves, List.length_append]; push_cast; linarith

theorem RTree.le_total {n : ℕ} {x : Fin n → ℝ} {u : ℝ} (hu : 0 ≤ u) (h : ∀ i, u ≤ x i) (t : RTree n) : u ≤ t.total x := by
  induction t with
  | leaf i => simpa using h i
  | node l r hl hr => rw [RTree.total_node]; linarith

/-- the trapezoid rule in rounded arithmetic -/
theorem Arith.Contract.trapz_rel (C : f.Contract κ) {n D' : ℕ} (og : RTree n) (hcov : og.Covers) (hdep : og.depth ≤ D') (hn : n ≤ 2 ^ 12) {y : ℕ → F} {Y : ℕ → ℝ} {grid : ℕ → ℝ} {ε : ℝ}
    (hε0 : 0 ≤ ε) (hy : ∀ j ≤ n, ∃ z, y j = fin z ∧ Rel ε (Y j) z) (hY : ∀ j ≤ n, (2⁻¹:ℝ) ^ 44 ≤ Y j ∧ Y j ≤ 2 ^ 44)
    (hgrid : ∀ j < n, (2⁻¹:ℝ) ^ 18 ≤ grid (j + 1) - grid j ∧ grid (j + 1) - grid j ≤ 2 ^ 18) (hε : ε + (8 + 2 * D') * κ ≤ 1) :
    ∃ T, trapzR f og y grid = fin T ∧ Rel (ε + (8 + 2 * D') * κ) (trapz (n + 1) Y grid) T ∧
      (2⁻¹:ℝ) ^ 63 ≤ trapz (n + 1) Y grid ∧ trapz (n + 1) Y grid ≤ 2 ^ 75 := by
  have hκ := C.pos
  have hD0 : (0:ℝ) ≤ D' := Nat.cast_nonneg _
  have hDκ : 0 ≤ D' * κ := mul_nonneg hD0 hκ.le
  set X : Fin n → ℝ := fun i => (grid (i + 1) - grid i) * (Y (i + 1) + Y i) with hX
  have hXb : ∀ i, (2⁻¹:ℝ) ^ 62 ≤ X i ∧ X i ≤ 2 ^ 63 := by
    intro i
    obtain ⟨g1, g2⟩ := hgrid i i.2
    obtain ⟨a1, a2⟩ := hY (i + 1) i.2
    obtain ⟨b1, b2⟩ := hY i i.2.le
    have hp : (0:ℝ) < 2⁻¹ ^ 44 := by positivity
    constructor
    · calc (2⁻¹:ℝ) ^ 62 = 2⁻¹ ^ 18 * 2⁻¹ ^ 44 := by norm_num
        _ ≤ X i := mul_le_mul g1 (by linarith) (by positivity) (le_trans (by positivity) g1)
    · calc X i ≤ 2 ^ 18 * (2 ^ 44 + 2 ^ 44) := mul_le_mul g2 (by linarith) (by linarith) (by positivity)
        _ = 2 ^ 63 := by norm_num
  have area : ∀ i : Fin n, ∃ z, f.r (f.r (fin (grid (i + 1)) - fin (grid i)) * f.r (y (i + 1) + y i)) = fin z ∧ Rel (ε + 6 * κ) (X i) z := by
    intro i
    obtain ⟨g1, g2⟩ := hgrid i i.2
    obtain ⟨a1, a2⟩ := hY (i + 1) i.2
    obtain ⟨b1, b2⟩ := hY i i.2.le
    obtain ⟨u, eu, ru⟩ := hy (i + 1) i.2
    obtain ⟨v, ev, rv⟩ := hy i i.2.le
    have hp : (0:ℝ) < 2⁻¹ ^ 44 := by positivity
    have wsum : Rel ε (Y (i + 1) + Y i) (u + v) :=
      Rel.of_within (by linarith) ((ru.within (by linarith)).add (rv.within (by linarith)))
    obtain ⟨w, ew, rw'⟩ := C.rel_round wsum (by linarith) (by refine le_trans ?_ (show (2⁻¹:ℝ) ^ 44 ≤ _ by linarith); norm_num)
      (by refine le_trans (show _ ≤ (2:ℝ) ^ 44 + 2 ^ 44 by linarith) ?_; norm_num)
    obtain ⟨g, eg, rg⟩ := C.rel_round (Rel.refl (x := grid (i + 1) - grid i)) (by norm_num) (by refine le_trans ?_ g1; norm_num) (g2.trans (by norm_num))
    obtain ⟨z, ez, rz⟩ := C.rel_round (rg.mul rw') (by linarith) (by refine le_trans ?_ (hXb i).1; norm_num) ((hXb i).2.trans (by norm_num))
    refine ⟨z, ?_, rz.mono (by linarith)⟩
    rw [eu, ev, add_fin, ew, sub_fin, eg, mul_fin, ez]
  choose z ez rz using area
  have hzb : ∀ i, Within (ε + 6 * κ) (X i) (z i) := fun i => (rz i).within (le_trans (by positivity) (hXb i).1)
  have hz3 : ∀ i, 3 * flLo ≤ z i := by
    intro i
    have := (hzb i).third_le (by linarith) (le_trans (by positivity) (hXb i).1)
    refine le_trans ?_ this
    have h1 := (hXb i).1
    have h2 : 3 * flLo ≤ (2⁻¹:ℝ) ^ 62 / 3 := by unfold flLo; norm_num
    linarith
  have hz4 : ∀ i, z i ≤ 3 * 2 ^ 63 := by
    intro i
    have := (hzb i).le_three (by linarith) (le_trans (by positivity) (hXb i).1)
    linarith [(hXb i).2]
  have hlen : (og.leaves.length : ℝ) ≤ 2 ^ 12 := by rw [hcov.length]; exact_mod_cast hn
  have htz : og.total z ≤ 2 ^ 12 * (3 * 2 ^ 63) := (RTree.total_le hz4 og).trans (mul_le_mul_of_nonneg_right hlen (by positivity))
  obtain ⟨S, eS, wS⟩ := C.sum_within ez (fun i => Or.inr (hz3 i)) og hdep (by linarith) (by refine le_trans (mul_le_mul_of_nonneg_left htz (by norm_num)) ?_; unfold flHi; norm_num)
  have hXl : (2⁻¹:ℝ) ^ 62 ≤ og.total X := RTree.le_total (by positivity) (fun i => (hXb i).1) og
  have hXu : og.total X ≤ 2 ^ 75 := by
    refine (RTree.total_le (fun i => (hXb i).2) og).trans ((mul_le_mul_of_nonneg_right hlen (by positivity)).trans (by norm_num))
  have hX0 : 0 < og.total X := lt_of_lt_of_le (by positivity) hXl
  have rS : Rel (ε + 6 * κ + 2 * κ * D') (og.total X) S := Rel.of_within hX0 ((RTree.total_within hzb og).trans wS)
  have etr : trapz (n + 1) Y grid = 0.5 * og.total X := by
    unfold trapz
    rw [hcov.total, Nat.add_sub_cancel, Finset.sum_range]
  have hh : Rel (ε + 6 * κ + 2 * κ * D') (0.5 * og.total X) (0.5 * S) := ((Rel.refl (x := 0.5)).mul rS).mono (by linarith)
  have e63 : (2⁻¹:ℝ) ^ 63 = 0.5 * 2⁻¹ ^ 62 := by norm_num
  obtain ⟨T, eT, rT⟩ := C.rel_round hh (by linarith) (by
      refine le_trans ?_ (mul_le_mul_of_nonneg_left hXl (by norm_num)); norm_num)
    ((mul_le_mul_of_nonneg_left hXu (by norm_num)).trans (by norm_num))
  refine ⟨T, ?_, ?_, ?_, ?_⟩
  · unfold trapzR; rw [eS, mul_fin, eT]
  · rw [etr]; exact rT.mono (by linarith)
  · rw [etr, e63]; exact mul_le_mul_of_nonneg_left hXl (by norm_num)
  · rw [etr]; linarith

/-- **C144.** The normalised `LogYBSpline` in rounded arithmetic: at every point of the range the returned density is the exact normalised density (trapezoid rule over the same stored grid)
up to a factor whose logarithm is at most `2 (10 k + 5 + 2 D) A κ + (16 + 2 D') κ`, `k` the order, `A ≤ 30` the largest coefficient, `D` and `D'` the depths of the two sums. -/
theorem C144_density (C : f.Contract κ) {s : Spline} {m D D' n : ℕ} {o : RTree s.N} {c : ℕ → ℝ} {A : ℝ} (h : s.DensityOK m o D c A κ) {og : RTree n} (hcov : og.Covers)
    (hdep : og.depth ≤ D') (hn : n ≤ 2 ^ 12) {grid : ℕ → ℝ} (hgrid : ∀ j < n, (2⁻¹:ℝ) ^ 18 ≤ grid (j + 1) - grid j ∧ grid (j + 1) - grid j ≤ 2 ^ 18)
    (hin : ∀ j ≤ n, s.Inside (grid j)) {x : ℝ} (hx : s.Inside x) (hA0 : 0 ≤ A) (hA : A ≤ 30)
    (hε : 2 * ((10 * s.order + 5 + 2 * D) * κ * A) + (16 + 2 * D') * κ ≤ 1) :
    ∃ p, s.logYEvalR f o og grid (fun i => fin (c i)) x = fin p ∧
      Within (2 * ((10 * s.order + 5 + 2 * D) * κ * A) + (16 + 2 * D') * κ)
        (Real.exp (∑ i ∈ range s.N, s.bBases i x * c i) * (1 / trapz (n + 1) (fun j => Real.exp (∑ i ∈ range s.N, s.bBases i (grid j) * c i)) grid)) p := by
  have hκ := C.pos
  have hD' : (0:ℝ) ≤ D' * κ := mul_nonneg (Nat.cast_nonneg _) hκ.le
  have hE0 : 0 ≤ (10 * (s.order:ℝ) + 5 + 2 * D) * κ * A := by positivity
  have key : ∀ {v : ℝ}, s.Inside v → ∃ y, s.logYProjectR f o (fun i => fin (c i)) v = fin y ∧
      Rel ((10 * s.order + 5 + 2 * D) * κ * A + 2 * κ) (Real.exp (s.expo c v)) y := by
    intro v hv
    obtain ⟨y, ey, wy⟩ := C144_project C h hv (by linarith) (by linarith)
    exact ⟨y, ey, Rel.of_within (Real.exp_pos _) wy⟩
  have hb : ∀ {v : ℝ}, s.Inside v → (2⁻¹:ℝ) ^ 44 ≤ Real.exp (s.expo c v) ∧ Real.exp (s.expo c v) ≤ 2 ^ 44 := by
    intro v hv
    obtain ⟨_, _, _, h3⟩ := C.expo h hv
    exact exp_bounds hA h3
  obtain ⟨T, eT, rT, T1, T2⟩ := C.trapz_rel og hcov hdep hn (Y := fun j => Real.exp (s.expo c (grid j))) (by linarith) (fun j hj => key (hin j hj)) (fun j hj => hb (hin j hj)) hgrid
    (by linarith)
  have hT0 : 0 < trapz (n + 1) (fun j => Real.exp (s.expo c (grid j))) grid := lt_of_lt_of_le (by positivity) T1
  have tp := rT.pos hT0
  have hinv1 : (2⁻¹:ℝ) ^ 75 ≤ 1 / trapz (n + 1) (fun j => Real.exp (s.expo c (grid j))) grid := by
    rw [one_div, inv_pow]; exact inv_anti₀ hT0 T2
  have hinv2 : 1 / trapz (n + 1) (fun j => Real.exp (s.expo c (grid j))) grid ≤ 2 ^ 63 := by
    rw [one_div]
    refine (inv_anti₀ (by positivity) T1).trans (le_of_eq ?_)
    rw [inv_pow, inv_inv]
  obtain ⟨q, eq, rq⟩ := C.rel_round ((Rel.refl (x := 1)).div rT) (by linarith) (by refine le_trans ?_ hinv1; norm_num) (hinv2.trans (by norm_num))
  obtain ⟨u, eu, ru⟩ := key hx
  obtain ⟨b1, b2⟩ := hb hx
  have r := ru.mul rq
  obtain ⟨p, ep, rp⟩ := C.rel_round r (by linarith)
    (by calc (2⁻¹:ℝ) ^ 122 ≤ 2⁻¹ ^ 44 * 2⁻¹ ^ 75 := by norm_num
          _ ≤ _ := mul_le_mul b1 hinv1 (by positivity) (le_trans (by positivity) b1))
    (by calc _ ≤ (2:ℝ) ^ 44 * 2 ^ 63 := mul_le_mul b2 hinv2 (le_trans (by positivity) hinv1) (by positivity)
          _ ≤ _ := by norm_num)
  refine ⟨p, ?_, Rel.within (mul_nonneg (Real.exp_pos _).le (le_trans (by positivity) hinv1)) (rp.mono (by linarith))⟩
  unfold Spline.logYEvalR
  rw [eT, show (1 : F) = fin 1 from rfl, div_fin tp.ne', eq, eu, mul_fin, ep]

theorem exp32_overflow {e : ℝ} (h : 99 ≤ e) : binary32.exp (fin e) = pinf := by
  have h1 : (2:ℝ) ^ 130 ≤ Real.exp e := by
    have e1 : Real.exp 99 = Real.exp 1 ^ 99 := by rw [← Real.exp_nat_mul]; norm_num
    have e2 : (2.7:ℝ) ≤ Real.exp 1 := by have := Real.exp_one_gt_d9; linarith
    have e3 : (2:ℝ) ^ 130 ≤ 2.7 ^ 99 := by norm_num
    calc (2:ℝ) ^ 130 ≤ Real.exp 1 ^ 99 := e3.trans (pow_le_pow_left₀ (by norm_num) e2 99)
      _ = Real.exp 99 := e1.symm
      _ ≤ Real.exp e := Real.exp_le_exp.2 h
  have h0 := Real.exp_pos e
  have e' := rd32_err (Real.exp e)
  have u := ulp32_normal (x := Real.exp e) (by rw [abs_of_pos h0]; refine le_trans ?_ h1; unfold flLo; norm_num)
  rw [abs_of_pos h0] at u
  have : binary32.exp (fin e) = rd32 (Real.exp e) := by simp [binary32]
  rw [this]
  unfold rd32
  simp only
  rw [if_pos]
  have e2 := (abs_le.1 e').1
  norm_num at u h1 ⊢
  linarith

theorem sum32_pinf {n : ℕ} {a : Fin n → F} (ha : ∀ i, a i = pinf) (t : RTree n) : binary32.sum a t = pinf := by
  induction t with
  | leaf i => exact ha i
  | node l r hl hr => simp [Arith.sum, hl, hr, Arith.r]

/-- Large coefficients: with every coefficient 100 the exact normalised density is uniform, in single precision the exponential overflows and the returned density is NaN at every point. -/
theorem C144_overflow_fails {s : Spline} {m D n : ℕ} {o : RTree s.N} (h : s.DensityOK m o D (fun _ => 100) 100 (2⁻¹ ^ 23)) (og : RTree n)
    {grid : ℕ → ℝ} (hgrid : ∀ j < n, (2⁻¹:ℝ) ^ 18 ≤ grid (j + 1) - grid j ∧ grid (j + 1) - grid j ≤ 2 ^ 18)
    (hin : ∀ j ≤ n, s.Inside (grid j) ∧ ∑ i ∈ range s.N, s.bBases i (grid j) = 1) {x : ℝ} (hx : s.Inside x) (hx1 : ∑ i ∈ range s.N, s.bBases i x = 1) :
    s.logYEvalR binary32 o og grid (fun _ => fin 100) x = nan ∧
      Real.exp (∑ i ∈ range s.N, s.bBases i x * 100) * (1 / trapz (n + 1) (fun j => Real.exp (∑ i ∈ range s.N, s.bBases i (grid j) * 100)) grid) = 1 / (grid n - grid 0) := by
  have C := binary32_contract
  have key : ∀ {v : ℝ}, s.Inside v → ∑ i ∈ range s.N, s.bBases i v = 1 → s.logYProjectR binary32 o (fun _ => fin 100) v = pinf := by
    intro v hv h1
    obtain ⟨e, ee, he, -⟩ := C.expo h hv
    have h2 : s.expo (fun _ => 100) v = 100 := by unfold Spline.expo; rw [← sum_mul, h1]; norm_num
    rw [h2] at he
    have hk : (s.order : ℝ) ≤ 16 := by exact_mod_cast h.knots.order.2
    have hD : (D : ℝ) ≤ 220 := by have := h.terms; exact_mod_cast (show D ≤ 220 by omega)
    have h3 : |e - 100| ≤ 1 := by
      refine he.trans ?_
      norm_num
      linarith
    unfold Spline.logYProjectR
    rw [ee]
    exact exp32_overflow (by have := (abs_le.1 h3).1; linarith)
  constructor
  · unfold Spline.logYEvalR trapzR
    rw [sum32_pinf _ og, key hx hx1]
    · simp only [fin_mul_pinf]
      rw [infOfSign_pos (by norm_num)]
      simp only [Arith.r, one_def, fin_div_pinf]
      have : binary32.rd 0 = fin 0 := C.rd_zero
      rw [this, pinf_mul_fin, infOfSign_zero]
    · intro i
      obtain ⟨g1, g2⟩ := hgrid i i.2
      have k1 := key (hin (i + 1) i.2).1 (hin (i + 1) i.2).2
      have k2 := key (hin i i.2.le).1 (hin i i.2.le).2
      beta_reduce
      rw [k1, k2]
      obtain ⟨g, eg, rg⟩ := C.rel_round (Rel.refl (x := grid (i + 1) - grid i)) (by norm_num) (by refine le_trans ?_ g1; norm_num) (g2.trans (by norm_num))
      have gp := rg.pos (lt_of_lt_of_le (by positivity) g1)
      rw [sub_fin, eg, pinf_add_pinf]
      simp only [Arith.r, fin_mul_pinf]
      rw [infOfSign_pos gp]
  · have e1 : ∀ v, ∑ i ∈ range s.N, s.bBases i v * 100 = (∑ i ∈ range s.N, s.bBases i v) * 100 := fun v => (sum_mul _ _ _).symm
    have e2 : trapz (n + 1) (fun j => Real.exp (∑ i ∈ range s.N, s.bBases i (grid j) * 100)) grid = Real.exp 100 * (grid n - grid 0) := by
      unfold trapz
      rw [Nat.add_sub_cancel]
      have : ∀ i ∈ range n, (grid (i + 1) - grid i) * (Real.exp (∑ k ∈ range s.N, s.bBases k (grid (i + 1)) * 100) + Real.exp (∑ k ∈ range s.N, s.bBases k (grid i) * 100)) =
          (grid (i + 1) - grid i) * (2 * Real.exp 100) := by
        intro i hi
        have hi := mem_range.1 hi
        rw [e1, e1, (hin _ hi).2, (hin _ hi.le).2]; ring_nf
      rw [sum_congr rfl this, ← sum_mul, Finset.sum_range_sub]
      ring
    rw [e1, hx1, e2, one_mul]
    have := Real.exp_pos 100
    rw [one_div, mul_inv, ← mul_assoc, mul_inv_cancel₀ this.ne', one_mul, one_div]

/-! ### a concrete spline: order 2, three components, knots 0 to 4, range [1, 3] -/

/-- the spline object of `BSpline(3, knots=[0, 1, 2, 3, 4], xrange=(1, 3), k=2)` -/
def hatSpline : Spline := ⟨2, 3, 1, 3, ⟨5, fun i => i⟩⟩

theorem hatSpline_init : Spline.init 3 (some ⟨5, fun i => i⟩) none 1 3 2 = .ok hatSpline := by simp [Spline.init, hatSpline]; rfl

theorem hatSpline_ok : hatSpline.KnotsOK 3 where
  len := rfl
  mono i j hij _ := by simpa [hatSpline] using hij
  gap i _ := by right; simp [hatSpline]; norm_num
  range i hi := by
    simp only [hatSpline] at hi ⊢
    have : (i:ℝ) ≤ 5 := by exact_mod_cast hi.le
    norm_num
    linarith
  small := by norm_num
  order := by simp [hatSpline]

theorem hatSpline_sum {x : ℝ} (h1 : 1 ≤ x) (h3 : x ≤ 3) : ∑ i ∈ range hatSpline.N, hatSpline.bBases i x = 1 := by
  have hs : Spline.init 3 (some ⟨5, fun i => i⟩) none ((⟨5, fun i => i⟩ : Arr ℝ).get (2 - 1)) ((⟨5, fun i => i⟩ : Arr ℝ).get 3) 2 = .ok hatSpline := by
    have e1 : (⟨5, fun i => i⟩ : Arr ℝ).get (2 - 1) = 1 := by norm_num
    have e2 : (⟨5, fun i => i⟩ : Arr ℝ).get 3 = 3 := by norm_num
    rw [e1, e2]; exact hatSpline_init
  exact C01_partition_of_unity_explicit 3 2 ⟨5, fun i => i⟩ le_rfl (by norm_num) (fun i j hij _ => by simpa using hij) (fun i _ => by right; norm_num)
    (by norm_num) hatSpline hs x (by norm_num; exact ⟨h1, h3⟩)

theorem hatSpline_inside {x : ℝ} (h1 : 1 ≤ x) (h3 : x ≤ 3) : hatSpline.Inside x where
  inside := by unfold Spline.outside; simp only [hatSpline]; push Not; exact ⟨h1, h3⟩
  near j hj := by
    simp only [hatSpline] at hj ⊢
    have : (j:ℝ) ≤ 5 := by exact_mod_cast hj.le
    have h0 : (0:ℝ) ≤ j := Nat.cast_nonneg j
    rw [abs_le]; constructor <;> norm_num <;> linarith
  unit := (hatSpline_sum h1 h3).le

/-- add the three components from left to right -/
def hatOrder : RTree hatSpline.N := .node (.node (.leaf ⟨0, by simp [hatSpline]⟩) (.leaf ⟨1, by simp [hatSpline]⟩)) (.leaf ⟨2, by simp [hatSpline]⟩)

theorem hatSpline_density {c : ℕ → ℝ} {A : ℝ} (hc : ∀ i < 3, |c i| ≤ A) (hA : A ≤ 128) : hatSpline.DensityOK 3 hatOrder 2 c A (2⁻¹ ^ 23) where
  knots := hatSpline_ok
  covers := by unfold RTree.Covers hatOrder; decide
  depth := by decide
  terms := by decide
  coefs i hi := hc i hi
  big := hA
  under := by simp only [hatSpline]; norm_num

/-- the grid 1, 2, 3 -/
def hatGrid (j : ℕ) : ℝ := 1 + j

def hatGridOrder : RTree 2 := .node (.leaf 0) (.leaf 1)

theorem hatGrid_inside (j : ℕ) (hj : j ≤ 2) : 1 ≤ hatGrid j ∧ hatGrid j ≤ 3 := by
  have : (j:ℝ) ≤ 2 := by exact_mod_cast hj
  have h0 : (0:ℝ) ≤ j := Nat.cast_nonneg j
  unfold hatGrid; constructor <;> linarith

theorem hatGrid_step (j : ℕ) (_ : j < 2) : (2⁻¹:ℝ) ^ 18 ≤ hatGrid (j + 1) - hatGrid j ∧ hatGrid (j + 1) - hatGrid j ≤ 2 ^ 18 := by
  unfold hatGrid; push_cast; constructor <;> ring_nf <;> norm_num

/-- in single precision, for all coefficients up to 5 and at every point of the range, the density is accurate to `2^-14` -/
example (c : ℕ → ℝ) (hc : ∀ i < 3, |c i| ≤ 5) (x : ℝ) (h1 : 1 ≤ x) (h3 : x ≤ 3) :
    ∃ p, hatSpline.logYEvalR binary32 hatOrder hatGridOrder hatGrid (fun i => fin (c i)) x = fin p ∧
      Within (2⁻¹ ^ 14) (Real.exp (∑ i ∈ range 3, hatSpline.bBases i x * c i) * (1 / trapz 3 (fun j => Real.exp (∑ i ∈ range 3, hatSpline.bBases i (hatGrid j) * c i)) hatGrid)) p := by
  obtain ⟨p, ep, wp⟩ := C144_density (D' := 1) binary32_contract (hatSpline_density hc (by norm_num)) (og := hatGridOrder) (by unfold RTree.Covers hatGridOrder; decide) (by decide) (by norm_num)
    hatGrid_step (fun j hj => hatSpline_inside (hatGrid_inside j hj).1 (hatGrid_inside j hj).2) (hatSpline_inside h1 h3) (by norm_num) (by norm_num)
    (by simp only [hatSpline]; norm_num)
  refine ⟨p, ep, wp.mono (by simp only [hatSpline]; norm_num) ?_⟩
  refine mul_nonneg (Real.exp_pos _).le (one_div_nonneg.2 ?_)
  unfold trapz
  refine mul_nonneg (by norm_num) (sum_nonneg fun i hi => mul_nonneg ?_ (add_nonneg (Real.exp_pos _).le (Real.exp_pos _).le))
  have := (hatGrid_step i (by have := mem_range.1 hi; omega)).1
  exact le_trans (by positivity) this

/-- a component of that spline in single precision: relative error `2^-18` at every point, apart from an amount below `2^-90` -/
example (x : ℝ) (h1 : 1 ≤ x) (h3 : x ≤ 3) (i : ℕ) (hi : i < 3) :
    ∃ y, hatSpline.bBasesR binary32 i x = fin y ∧ |y - hatSpline.bBases i x| ≤ 2⁻¹ ^ 18 * hatSpline.bBases i x + 2⁻¹ ^ 90 := by
  obtain ⟨y, ey, hy, -⟩ := C143_design binary32_contract hatSpline_ok (hatSpline_inside h1 h3).near (i := i) hi
  refine ⟨y, ey, hy.trans (add_le_add (mul_le_mul_of_nonneg_right ?_ ?_) ?_)⟩
  · simp only [hatSpline]; norm_num
  · unfold Spline.bBases
    rw [if_neg (hatSpline_inside h1 h3).inside]
    exact hatSpline.bBase_nonneg hatSpline_ok hi x
  · simp only [hatSpline]; norm_num

/-- and with coefficients 100 it is NaN -/
example : hatSpline.logYEvalR binary32 hatOrder hatGridOrder hatGrid (fun _ => fin 100) 2 = nan :=
  (C144_overflow_fails (hatSpline_density (c := fun _ => 100) (by norm_num) (by norm_num)) hatGridOrder hatGrid_step
    (fun j hj => ⟨hatSpline_inside (hatGrid_inside j hj).1 (hatGrid_inside j hj).2, hatSpline_sum (hatGrid_inside j hj).1 (hatGrid_inside j hj).2⟩)
    (hatSpline_inside (by norm_num) (by norm_num)) (hatSpline_sum (by norm_num) (by norm_num))).1

end GW
end
