import Verif.Model.NaturalCubic
import Verif.Lemmas.Glue
import Mathlib.LinearAlgebra.Matrix.ToLinearEquiv
import Mathlib.Analysis.Calculus.Deriv.Mul
import Mathlib.Analysis.Calculus.Deriv.Add

/-! # Properties C11, C12, C13: the cubic spline interpolant -/

open Matrix Finset
noncomputable section
namespace GW

/-! ### the linear system, row by row -/

theorem natMatrix_mulVec {n : ℕ} (x : ℕ → ℝ) (c : Fin n → ℝ) (i : Fin n) :
    (natMatrix n x *ᵥ c) i = natDiag n x i * c i
      + (if h : i.1 + 1 < n then natUpper x i * c ⟨i.1 + 1, h⟩ else 0)
      + (if h : 0 < i.1 then natLower n x (i.1 - 1) * c ⟨i.1 - 1, by omega⟩ else 0) := by
  simp only [mulVec, dotProduct, natMatrix, add_mul, ite_mul, zero_mul]
  rw [sum_add_distrib, sum_add_distrib]
  congr 1
  · congr 1
    · rw [sum_eq_single i]
      · simp
      · intro j _ hj; rw [if_neg]; intro h; exact hj (Fin.ext h.symm)
      · simp
    · by_cases h : i.1 + 1 < n
      · rw [dif_pos h, sum_eq_single ⟨i.1 + 1, h⟩]
        · simp
        · intro j _ hj; rw [if_neg]; intro h'; exact hj (Fin.ext h')
        · simp
      · rw [dif_neg h]
        apply sum_eq_zero
        intro j _; rw [if_neg]; intro h'; have := j.2; omega
  · by_cases h : 0 < i.1
    · rw [dif_pos h, sum_eq_single ⟨i.1 - 1, by omega⟩]
      · rw [if_pos]; show i.1 = i.1 - 1 + 1; omega
      · intro j _ hj; rw [if_neg]; intro h'; apply hj; apply Fin.ext; show j.1 = i.1 - 1; omega
      · simp
    · rw [dif_neg h]
      apply sum_eq_zero
      intro j _; rw [if_neg]; omega

/-- The system as equations: `c 0 = 0`, the interior second-derivative equations, and the *last row*
`c (n-1) = c (n-2)`. -/
structure NatSystem (n : ℕ) (x y c : ℕ → ℝ) : Prop where
  first : c 0 = 0
  mid : ∀ i, i + 2 < n → diff x i * c i + 2 * (diff x i + diff x (i + 1)) * c (i + 1) + diff x (i + 1) * c (i + 2)
    = 3 * (diff y (i + 1) / diff x (i + 1) - diff y i / diff x i)
  last : c (n - 1) = c (n - 2)

theorem natSystem_iff {n : ℕ} (hn : 3 < n) (x y c : ℕ → ℝ) :
    natMatrix n x *ᵥ (fun i : Fin n => c i) = natRhs n x y ↔ NatSystem n x y c := by
  constructor
  · intro h
    have row := fun i : Fin n => congrFun h i
    simp only [natMatrix_mulVec] at row
    refine ⟨?_, ?_, ?_⟩
    · have := row ⟨0, by omega⟩
      simpa [natDiag, natUpper, natRhs] using this
    · intro i hi
      have := row ⟨i + 1, by omega⟩
      simp only [natDiag, natUpper, natLower, natRhs, Nat.add_eq_zero_iff, one_ne_zero, and_false, if_false,
        show i + 1 < n - 1 by omega, if_true, show i + 1 + 1 < n by omega, dif_pos, Nat.succ_pos', Nat.add_sub_cancel,
        show i < n - 2 by omega] at this
      rw [← this]
      ring
    · have := row ⟨n - 1, by omega⟩
      simp only [natDiag, natLower, natRhs, show n - 1 ≠ 0 by omega, if_false, lt_irrefl,
        show ¬ (n - 1 + 1 < n) by omega, dif_neg, not_false_eq_true, show 0 < n - 1 by omega, dif_pos,
        show n - 1 - 1 = n - 2 by omega] at this
      linarith
  · intro h
    funext i
    rw [natMatrix_mulVec]
    obtain ⟨i, hi⟩ := i
    rcases Nat.eq_zero_or_pos i with rfl | hpos
    · simp [natDiag, natUpper, natRhs, h.first]
    · rcases Nat.lt_or_ge i (n - 1) with hlt | hge
      · obtain ⟨j, rfl⟩ : ∃ j, i = j + 1 := ⟨i - 1, by omega⟩
        have := h.mid j (by omega)
        simp only [natDiag, natUpper, natLower, natRhs, Nat.add_eq_zero_iff, one_ne_zero, and_false, if_false,
          hlt, if_true, show j + 1 + 1 < n by omega, dif_pos, Nat.add_sub_cancel,
          show j < n - 2 by omega, show 0 < j + 1 by omega]
        rw [← this]; ring
      · have e : i = n - 1 := by omega
        subst e
        simp only [natDiag, natLower, natRhs, show n - 1 ≠ 0 by omega, if_false, lt_irrefl,
          show ¬ (n - 1 + 1 < n) by omega, dif_neg, not_false_eq_true, show 0 < n - 1 by omega, dif_pos,
          show n - 1 - 1 = n - 2 by omega]
        have := h.last
        linarith

theorem diff_pos {n : ℕ} {x : ℕ → ℝ} (h : IncOn n x) {i : ℕ} (hi : i + 1 < n) : 0 < diff x i := by
  unfold diff; have := h i hi; linarith

/-- the homogeneous system has only the zero solution (largest-entry argument) -/
theorem natSystem_homog {n : ℕ} (hn : 3 < n) {x c : ℕ → ℝ} (hx : IncOn n x) (h : NatSystem n x (fun _ => 0) c) :
    ∀ i < n, c i = 0 := by
  obtain ⟨m, hm, hmax⟩ := exists_max_image (range n) (fun i => |c i|) ⟨0, by simp; omega⟩
  have hmn := mem_range.1 hm
  have mx : ∀ j < n, |c j| ≤ |c m| := fun j hj => hmax j (mem_range.2 hj)
  have interior : ∀ i, i + 2 < n → (∀ j < n, |c j| ≤ |c (i + 1)|) → c (i + 1) = 0 := by
    intro i hi hj
    have e := h.mid i hi
    have h0 := diff_pos hx (show i + 1 < n by omega)
    have h1 := diff_pos hx (show i + 1 + 1 < n by omega)
    have z : ∀ j, diff (fun _ => (0:ℝ)) j = 0 := fun j => by simp [diff]
    rw [z, z] at e
    have a := hj i (by omega)
    have b := hj (i + 2) (by omega)
    set M := |c (i + 1)| with hM
    have e' : 2 * (diff x i + diff x (i + 1)) * c (i + 1) = -(diff x i * c i + diff x (i + 1) * c (i + 2)) := by
      have : 3 * ((0:ℝ) / diff x (i + 1) - 0 / diff x i) = 0 := by simp
      rw [this] at e; linarith
    have k1 : 2 * (diff x i + diff x (i + 1)) * M ≤ diff x i * M + diff x (i + 1) * M := by
      calc 2 * (diff x i + diff x (i + 1)) * M = |2 * (diff x i + diff x (i + 1)) * c (i + 1)| := by
            rw [abs_mul, abs_of_pos (by linarith : 0 < 2 * (diff x i + diff x (i + 1)))]
        _ = |diff x i * c i + diff x (i + 1) * c (i + 2)| := by rw [e', abs_neg]
        _ ≤ |diff x i * c i| + |diff x (i + 1) * c (i + 2)| := abs_add_le _ _
        _ = diff x i * |c i| + diff x (i + 1) * |c (i + 2)| := by rw [abs_mul, abs_mul, abs_of_pos h0, abs_of_pos h1]
        _ ≤ diff x i * M + diff x (i + 1) * M := by
            have := mul_le_mul_of_nonneg_left a h0.le
            have := mul_le_mul_of_nonneg_left b h1.le
            linarith
    have k2 : M ≤ 0 := by
      by_contra hc
      push Not at hc
      nlinarith
    exact abs_eq_zero.1 (le_antisymm k2 (abs_nonneg _))
  have cm : c m = 0 := by
    rcases Nat.eq_zero_or_pos m with rfl | hp
    · exact h.first
    · rcases Nat.lt_or_ge m (n - 1) with hlt | hge
      · obtain ⟨i, rfl⟩ : ∃ i, m = i + 1 := ⟨m - 1, by omega⟩
        exact interior i (by omega) mx
      · have e : m = n - 1 := by omega
        rw [e, h.last]
        have e2 : n - 2 = (n - 3) + 1 := by omega
        rw [e2]
        apply interior (n - 3) (by omega)
        intro j hj
        rw [← e2, ← h.last, ← e]
        exact mx j hj
  intro i hi
  have := mx i hi
  rw [cm, abs_zero] at this
  exact abs_eq_zero.1 (le_antisymm this (abs_nonneg _))

theorem natMatrix_det_ne_zero {n : ℕ} (hn : 3 < n) {x : ℕ → ℝ} (hx : IncOn n x) : (natMatrix n x).det ≠ 0 := by
  intro hdet
  obtain ⟨v, hv, hz⟩ := Matrix.exists_mulVec_eq_zero_iff.2 hdet
  apply hv
  let c : ℕ → ℝ := fun i => if h : i < n then v ⟨i, h⟩ else 0
  have hc : (fun i : Fin n => c i) = v := by funext i; simp [c]
  have hrhs : natRhs n x (fun _ => 0) = 0 := by
    funext i; simp [natRhs, diff]
  have sys : NatSystem n x (fun _ => 0) c := by
    rw [← natSystem_iff hn, hc, hz, hrhs]
  have := natSystem_homog hn hx sys
  funext i
  have h1 := this i.1 i.2
  simpa [c] using h1

/-- **C13.** For every strictly increasing abscissa vector with more than three points and every right-hand side, the
matrix the constructor builds is invertible and its linear system has exactly one solution. -/
theorem C13_unique_solution (n : ℕ) (hn : 3 < n) (x : ℕ → ℝ) (hx : IncOn n x) (s : Fin n → ℝ) :
    IsUnit (natMatrix n x) ∧ ∃! c : Fin n → ℝ, natMatrix n x *ᵥ c = s := by
  have hu : IsUnit (natMatrix n x) := (isUnit_iff_isUnit_det _).2 (natMatrix_det_ne_zero hn hx).isUnit
  have hu' := (isUnit_iff_isUnit_det _).1 hu
  refine ⟨hu, (natMatrix n x)⁻¹ *ᵥ s, ?_, ?_⟩
  · simp only [mulVec_mulVec, mul_nonsing_inv _ hu', one_mulVec]
  · intro c hc
    rw [← hc, mulVec_mulVec, nonsing_inv_mul _ hu', one_mulVec]

/-- **C13.** Construction succeeds exactly when the lengths agree and there are more than three points; the stored
coefficients satisfy the spline equations, and are the only ones that do. -/
theorem C13_init (x y : Arr ℝ) :
    (∀ s, NatSpline.init x y = .ok s → x.len = y.len ∧ 3 < x.len) ∧
    (x.len = y.len → 3 < x.len → IncOn x.len x.get →
      ∃ s, NatSpline.init x y = .ok s ∧ s.n = x.len ∧ s.x = x.get ∧ s.y = y.get ∧
        NatSystem x.len x.get y.get s.c ∧
        ∀ c, NatSystem x.len x.get y.get c → ∀ i < x.len, c i = s.c i) := by
  constructor
  · intro s h
    unfold NatSpline.init at h
    split_ifs at h with h1 h2
    exact ⟨not_not.1 h1, by omega⟩
  · intro hl hn hx
    unfold NatSpline.init
    rw [if_neg (by simp [hl]), if_neg (by simp only [not_not]; exact hn)]
    refine ⟨_, rfl, rfl, rfl, rfl, ?_, ?_⟩
    · rw [← natSystem_iff hn]
      have e : (fun i : Fin x.len => (if h : i.1 < x.len then
          ((natMatrix x.len x.get)⁻¹ *ᵥ natRhs x.len x.get y.get) ⟨i.1, h⟩ else 0))
          = (natMatrix x.len x.get)⁻¹ *ᵥ natRhs x.len x.get y.get := by
        funext i; simp
      simp only
      rw [e, mulVec_mulVec, mul_nonsing_inv _ (natMatrix_det_ne_zero hn hx).isUnit, one_mulVec]
    · intro c hc i hi
      rw [← natSystem_iff hn] at hc
      simp only [dif_pos hi]
      rw [← hc, mulVec_mulVec, nonsing_inv_mul _ (natMatrix_det_ne_zero hn hx).isUnit, one_mulVec]

/-! ### derivatives of the pieces -/

/-- first derivative of piece `i` -/
def NatSpline.piece1 (s : NatSpline) (i : ℕ) (z : ℝ) : ℝ :=
  ((s.y (i + 1) - s.y i) / diff s.x i - (2 * s.c i + s.c (i + 1)) * diff s.x i / 3)
    + 2 * s.c i * (z - s.x i) + (s.c (i + 1) - s.c i) / diff s.x i * (z - s.x i) ^ 2

/-- second derivative of piece `i` -/
def NatSpline.piece2 (s : NatSpline) (i : ℕ) (z : ℝ) : ℝ :=
  2 * s.c i + 2 * ((s.c (i + 1) - s.c i) / diff s.x i) * (z - s.x i)

theorem NatSpline.hasDeriv_piece (s : NatSpline) (i : ℕ) (z : ℝ) : HasDerivAt (s.piece i) (s.piece1 i z) z := by
  unfold NatSpline.piece NatSpline.piece1
  have ht : HasDerivAt (fun z : ℝ => z - s.x i) 1 z := (hasDerivAt_id z).sub_const _
  have h := (((hasDerivAt_const z (s.y i)).add (ht.const_mul ((s.y (i + 1) - s.y i) / diff s.x i
    - (2 * s.c i + s.c (i + 1)) * diff s.x i / 3))).add ((ht.pow 2).const_mul (s.c i))).add
    ((ht.pow 3).const_mul ((s.c (i + 1) - s.c i) / (3 * diff s.x i)))
  refine (h.congr_deriv ?_)
  by_cases h0 : diff s.x i = 0
  · simp [h0]; ring
  · simp only [Nat.cast_ofNat, mul_one]
    field_simp; ring

theorem NatSpline.hasDeriv_piece1 (s : NatSpline) (i : ℕ) (z : ℝ) : HasDerivAt (s.piece1 i) (s.piece2 i z) z := by
  unfold NatSpline.piece1 NatSpline.piece2
  have ht : HasDerivAt (fun z : ℝ => z - s.x i) 1 z := (hasDerivAt_id z).sub_const _
  have h := ((hasDerivAt_const z ((s.y (i + 1) - s.y i) / diff s.x i
    - (2 * s.c i + s.c (i + 1)) * diff s.x i / 3)).add (ht.const_mul (2 * s.c i))).add
    ((ht.pow 2).const_mul ((s.c (i + 1) - s.c i) / diff s.x i))
  refine (h.congr_deriv ?_)
  simp only [Nat.cast_ofNat, mul_one]; ring

theorem NatSpline.eval_eq_glue (s : NatSpline) : s.eval = glue s.n s.x s.piece := rfl

/-- what is used about a constructed spline -/
structure NatSpline.Good (s : NatSpline) : Prop where
  hn : 3 < s.n
  inc : IncOn s.n s.x
  sys : NatSystem s.n s.x s.y s.c

theorem NatSpline.good_of_init {x y : Arr ℝ} {s : NatSpline} (h : NatSpline.init x y = .ok s) (hx : IncOn x.len x.get) :
    s.Good ∧ s.n = x.len ∧ s.x = x.get ∧ s.y = y.get := by
  obtain ⟨hl, hn⟩ := (C13_init x y).1 s h
  obtain ⟨s', h', e1, e2, e3, sys, _⟩ := (C13_init x y).2 hl hn hx
  rw [h] at h'
  injection h' with h'
  subst h'
  exact ⟨⟨by rw [e1]; exact hn, by rw [e1, e2]; exact hx, by rw [e1, e2, e3]; exact sys⟩, e1, e2, e3⟩

theorem NatSpline.Good.value_match {s : NatSpline} (g : s.Good) (i : ℕ) (hi : i + 1 ≤ s.n - 2) :
    s.piece i (s.x (i + 1)) = s.piece (i + 1) (s.x (i + 1)) := by
  have hn := g.hn
  have h0 := diff_pos g.inc (show i + 1 < s.n by omega)
  have e : s.x (i + 1) - s.x i = diff s.x i := rfl
  simp only [NatSpline.piece, sub_self, e]
  have := h0.ne'
  field_simp; ring

theorem NatSpline.Good.value_right {s : NatSpline} (g : s.Good) (i : ℕ) (hi : i ≤ s.n - 2) :
    s.piece i (s.x (i + 1)) = s.y (i + 1) := by
  have hn := g.hn
  have h0 := diff_pos g.inc (show i + 1 < s.n by omega)
  have e : s.x (i + 1) - s.x i = diff s.x i := rfl
  simp only [NatSpline.piece, e]
  have := h0.ne'
  field_simp; ring

theorem NatSpline.Good.deriv_match {s : NatSpline} (g : s.Good) (i : ℕ) (hi : i + 1 ≤ s.n - 2) :
    s.piece1 i (s.x (i + 1)) = s.piece1 (i + 1) (s.x (i + 1)) := by
  have hn := g.hn
  have h0 := (diff_pos g.inc (show i + 1 < s.n by omega)).ne'
  have h1 := (diff_pos g.inc (show i + 1 + 1 < s.n by omega)).ne'
  have e : s.x (i + 1) - s.x i = diff s.x i := rfl
  have m := g.sys.mid i (by omega)
  have ey : diff s.y i = s.y (i + 1) - s.y i := rfl
  have ey1 : diff s.y (i + 1) = s.y (i + 2) - s.y (i + 1) := rfl
  rw [ey, ey1] at m
  simp only [NatSpline.piece1, sub_self, e]
  have e1 : (s.c (i + 1) - s.c i) / diff s.x i * diff s.x i ^ 2 = (s.c (i + 1) - s.c i) * diff s.x i := by
    field_simp
  rw [e1, show i + 1 + 1 = i + 2 by rfl]
  linarith

theorem NatSpline.Good.deriv2_match {s : NatSpline} (g : s.Good) (i : ℕ) (hi : i + 1 ≤ s.n - 2) :
    s.piece2 i (s.x (i + 1)) = s.piece2 (i + 1) (s.x (i + 1)) := by
  have hn := g.hn
  have h0 := (diff_pos g.inc (show i + 1 < s.n by omega)).ne'
  have e : s.x (i + 1) - s.x i = diff s.x i := rfl
  simp only [NatSpline.piece2, sub_self, e]
  field_simp; ring

theorem NatSpline.Good.deriv_eval {s : NatSpline} (g : s.Good) : deriv s.eval = glue s.n s.x s.piece1 := by
  have hn := g.hn
  funext z
  exact (glue_hasDerivAt (by omega) g.inc s.hasDeriv_piece g.value_match g.deriv_match z).deriv

theorem NatSpline.Good.deriv_deriv_eval {s : NatSpline} (g : s.Good) : deriv (deriv s.eval) = glue s.n s.x s.piece2 := by
  have hn := g.hn
  rw [g.deriv_eval]
  funext z
  exact (glue_hasDerivAt (by omega) g.inc s.hasDeriv_piece1 g.deriv_match g.deriv2_match z).deriv

theorem NatSpline.Good.deriv2_at {s : NatSpline} (g : s.Good) (i : ℕ) (hi : i < s.n) :
    deriv (deriv s.eval) (s.x i) = 2 * s.c i := by
  have hn := g.hn
  rw [g.deriv_deriv_eval]
  unfold glue
  rcases Nat.lt_or_ge i (s.n - 1) with h | h
  · rw [cellIdx_eq (i := i) (by omega) g.inc (by omega) (Or.inr (le_refl _)) (Or.inr (g.inc i (by omega)))]
    simp [NatSpline.piece2]
  · have e : i = s.n - 2 + 1 := by omega
    rw [cellIdx_eq (i := s.n - 2) (by omega) g.inc (by omega) (Or.inr (g.inc.le (by omega) hi)) (Or.inl rfl)]
    have h0 := (diff_pos g.inc (show s.n - 2 + 1 < s.n by omega)).ne'
    rw [e]
    simp only [NatSpline.piece2]
    have e2 : s.x (s.n - 2 + 1) - s.x (s.n - 2) = diff s.x (s.n - 2) := rfl
    rw [e2]; field_simp; ring

/-- **C11.** For every strictly increasing abscissa vector (more than three points) and every ordinate vector of the
same length: the spline returns `y i` at knot `i`, is twice continuously differentiable on the whole real line, is
given by one cubic polynomial between consecutive knots, and its second derivative at the first knot is zero. -/
theorem C11_interpolates_C2 (x y : Arr ℝ) (s : NatSpline) (h : NatSpline.init x y = .ok s) (hx : IncOn x.len x.get) :
    (∀ i < x.len, s.eval (x.get i) = y.get i) ∧
    ContDiff ℝ 2 s.eval ∧
    (∀ i, i + 1 < x.len → ∃ a b c d : ℝ, ∀ z, x.get i ≤ z → z ≤ x.get (i + 1) →
      s.eval z = a + b * z + c * z ^ 2 + d * z ^ 3) ∧
    deriv (deriv s.eval) (x.get 0) = 0 := by
  obtain ⟨g, e1, e2, e3⟩ := s.good_of_init h hx
  have hn := g.hn
  rw [← e1, ← e2, ← e3]
  refine ⟨?_, ?_, ?_, ?_⟩
  · intro i hi
    rw [s.eval_eq_glue]; unfold glue
    rcases Nat.lt_or_ge i (s.n - 1) with hh | hh
    · rw [cellIdx_eq (i := i) (by omega) g.inc (by omega) (Or.inr (le_refl _)) (Or.inr (g.inc i (by omega)))]
      simp [NatSpline.piece]
    · have e : i = s.n - 2 + 1 := by omega
      rw [cellIdx_eq (i := s.n - 2) (by omega) g.inc (by omega) (Or.inr (g.inc.le (by omega) hi)) (Or.inl rfl), e]
      exact g.value_right _ (le_refl _)
  · have d0 : Differentiable ℝ s.eval := fun z =>
      (glue_hasDerivAt (by omega) g.inc s.hasDeriv_piece g.value_match g.deriv_match z).differentiableAt
    have d1 : Differentiable ℝ (deriv s.eval) := by
      rw [g.deriv_eval]
      exact fun z => (glue_hasDerivAt (by omega) g.inc s.hasDeriv_piece1 g.deriv_match g.deriv2_match z).differentiableAt
    have c2 : Continuous (deriv (deriv s.eval)) := by
      rw [g.deriv_deriv_eval]
      refine glue_continuous (by omega) g.inc (fun i => ?_) g.deriv2_match
      unfold NatSpline.piece2; fun_prop
    rw [show (2 : WithTop ℕ∞) = 1 + 1 by norm_num, contDiff_succ_iff_deriv]
    refine ⟨d0, by simp, ?_⟩
    rw [contDiff_one_iff_deriv]
    exact ⟨d1, c2⟩
  · intro i hi
    let h := diff s.x i
    let b := (s.y (i + 1) - s.y i) / h - (2 * s.c i + s.c (i + 1)) * h / 3
    let d := (s.c (i + 1) - s.c i) / (3 * h)
    let a := s.x i
    refine ⟨s.y i - b * a + s.c i * a ^ 2 - d * a ^ 3, b - 2 * s.c i * a + 3 * d * a ^ 2, s.c i - 3 * d * a, d, ?_⟩
    intro z h1 h2
    have key : s.eval z = s.piece i z := by
      rw [s.eval_eq_glue]; unfold glue
      rcases h2.lt_or_eq with h2 | h2
      · rw [cellIdx_eq (i := i) (by omega) g.inc (by omega) (Or.inr h1) (Or.inr h2)]
      · rcases Nat.lt_or_ge (i + 1) (s.n - 1) with hh | hh
        · rw [cellIdx_eq (i := i + 1) (by omega) g.inc (by omega) (Or.inr h2.ge)
            (Or.inr (by rw [h2]; exact g.inc (i + 1) (by omega))), h2]
          exact (g.value_match i (by omega)).symm
        · rw [cellIdx_eq (i := i) (by omega) g.inc (by omega) (Or.inr h1) (Or.inl (by omega))]
    rw [key]
    simp only [NatSpline.piece]
    show s.y i + b * (z - a) + s.c i * (z - a) ^ 2 + d * (z - a) ^ 3 = _
    ring
  · rw [g.deriv2_at 0 (by omega), g.sys.first, mul_zero]

/-- Straight-line data is reproduced exactly everywhere. -/
theorem C11_reproduces_lines (x y : Arr ℝ) (s : NatSpline) (h : NatSpline.init x y = .ok s) (hx : IncOn x.len x.get)
    (α β : ℝ) (hy : ∀ i < x.len, y.get i = α + β * x.get i) (z : ℝ) : s.eval z = α + β * z := by
  obtain ⟨g, e1, e2, e3⟩ := s.good_of_init h hx
  have hn := g.hn
  have hz : ∀ i < s.n, s.c i = 0 := by
    refine natSystem_homog hn g.inc ⟨g.sys.first, fun i hi => ?_, g.sys.last⟩
    have hy' : ∀ i < s.n, s.y i = α + β * s.x i := by rw [e1, e2, e3]; exact hy
    have sl : ∀ j, j + 1 < s.n → diff s.y j / diff s.x j = β := by
      intro j hj
      have h0 := diff_pos g.inc hj
      rw [div_eq_iff h0.ne']
      simp only [diff]
      rw [hy' j (by omega), hy' (j + 1) hj]; ring
    rw [g.sys.mid i hi, sl _ (by omega), sl _ (by omega)]
    simp [diff]
  have hy' : ∀ i < s.n, s.y i = α + β * s.x i := by rw [e1, e2, e3]; exact hy
  rw [s.eval_eq_glue]; unfold glue
  obtain ⟨hc, -, -⟩ := cellIdx_spec (by omega) g.inc z
  set i := cellIdx s.n s.x z
  have h0 := (diff_pos g.inc (show i + 1 < s.n by omega)).ne'
  simp only [NatSpline.piece]
  rw [hz i (by omega), hz (i + 1) (by omega), hy' i (by omega), hy' (i + 1) (by omega)]
  have : α + β * s.x (i + 1) - (α + β * s.x i) = β * diff s.x i := by unfold diff; ring
  rw [this]; field_simp; ring

/-- **C12** (what holds instead): the second derivative at the last knot equals the one at the knot before — the last
piece is quadratic.  The full claim (it is zero) fails, see `C12_right_end_fails`. -/
theorem C12_right_end_partial (x y : Arr ℝ) (s : NatSpline) (h : NatSpline.init x y = .ok s) (hx : IncOn x.len x.get) :
    deriv (deriv s.eval) (x.get (x.len - 1)) = deriv (deriv s.eval) (x.get (x.len - 2)) ∧
    ∀ z, x.get (x.len - 2) ≤ z → deriv (deriv s.eval) z = deriv (deriv s.eval) (x.get (x.len - 1)) := by
  obtain ⟨g, e1, e2, e3⟩ := s.good_of_init h hx
  have hn := g.hn
  rw [← e1, ← e2]
  have e : deriv (deriv s.eval) (s.x (s.n - 1)) = deriv (deriv s.eval) (s.x (s.n - 2)) := by
    rw [g.deriv2_at _ (by omega), g.deriv2_at _ (by omega), g.sys.last]
  refine ⟨e, fun z hz => ?_⟩
  rw [e, g.deriv2_at _ (by omega), g.deriv_deriv_eval]
  unfold glue
  rw [cellIdx_eq (i := s.n - 2) (by omega) g.inc (by omega) (Or.inr hz) (Or.inl rfl)]
  have : s.c (s.n - 2 + 1) = s.c (s.n - 2) := by
    have := g.sys.last
    rwa [show s.n - 2 + 1 = s.n - 1 by omega]
  simp [NatSpline.piece2, this]

/-- slopes and ordinates realising prescribed second-derivative coefficients -/
def slopes (x c : ℕ → ℝ) : ℕ → ℝ
  | 0 => 0
  | i + 1 => slopes x c i + (diff x i * c i + 2 * (diff x i + diff x (i + 1)) * c (i + 1) + diff x (i + 1) * c (i + 2)) / 3

def ordinates (x c : ℕ → ℝ) : ℕ → ℝ
  | 0 => 0
  | i + 1 => ordinates x c i + diff x i * slopes x c i

/-- **C12 fails**, for every abscissa vector: whatever the knots, there are ordinates for which the second derivative
at the last knot is 2, not 0. -/
theorem C12_right_end_fails (x : Arr ℝ) (hn : 3 < x.len) (hx : IncOn x.len x.get) :
    ∃ (y : Arr ℝ) (s : NatSpline), NatSpline.init x y = .ok s ∧ deriv (deriv s.eval) (x.get (x.len - 1)) = 2 := by
  let c : ℕ → ℝ := fun i => if i = 0 then 0 else 1
  let y : Arr ℝ := ⟨x.len, ordinates x.get c⟩
  have sys : NatSystem x.len x.get y.get c := by
    refine ⟨by simp [c], fun i hi => ?_, by simp [c, show x.len - 1 ≠ 0 by omega, show x.len - 2 ≠ 0 by omega]⟩
    have sl : ∀ j, j + 1 < x.len → diff y.get j / diff x.get j = slopes x.get c j := by
      intro j hj
      have h0 := diff_pos hx hj
      rw [div_eq_iff h0.ne']
      show ordinates x.get c (j + 1) - ordinates x.get c j = _
      simp only [ordinates]; ring
    rw [sl _ (by omega), sl _ (by omega)]
    simp only [slopes]; ring
  obtain ⟨s, h1, e1, e2, e3, -, huniq⟩ := (C13_init x y).2 rfl hn hx
  refine ⟨y, s, h1, ?_⟩
  obtain ⟨g, -, -, -⟩ := s.good_of_init h1 hx
  have := huniq c sys (x.len - 1) (by omega)
  rw [← e1, ← e2, g.deriv2_at _ (by omega), e1, ← this]
  simp [c, show x.len - 1 ≠ 0 by omega]

/-- the hypotheses are met by the knots 0, 1, 2, …, of any length above three -/
example (n : ℕ) (hn : 3 < n) : ∃ s, NatSpline.init ⟨n, fun i => (i : ℝ)⟩ ⟨n, fun i => (i : ℝ) ^ 2⟩ = .ok s ∧
    IncOn n (fun i => (i : ℝ)) := by
  have hx : IncOn n (fun i => (i : ℝ)) := fun i _ => by simp
  obtain ⟨s, hs, -⟩ := (C13_init ⟨n, fun i => (i : ℝ)⟩ ⟨n, fun i => (i : ℝ) ^ 2⟩).2 rfl hn hx
  exact ⟨s, hs, hx⟩

end GW
end
