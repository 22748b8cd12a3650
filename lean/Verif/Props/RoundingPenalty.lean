import Verif.Model.RoundingPenalty
import Verif.Props.RoundingRange
import Verif.Props.RoundingLogistic
import Verif.Props.PSpline

/-! # Property C155: the P-spline penalty in single precision -/

open Finset
noncomputable section
open Classical
namespace GW
open F

variable {f : Arith} {κ : ℝ}

/-- differences of numbers known up to a factor `q` of a common bound -/
theorem Arith.Contract.diffN_err (C : f.Contract κ) (m : ℕ) : ∀ (n : ℕ) {a : ℕ → F} {y c : ℕ → ℝ} {q B : ℝ}, 1 ≤ q → (∀ i < m + n, a i = fin (y i)) → (∀ i < m + n, |y i - c i| ≤ (q - 1) * B) →
    (∀ i < m + n, |c i| + 1 ≤ B) → q * (1 + κ) ^ n * (2 ^ n * B) ≤ flHi → 1 ≤ B →
    ∃ d : ℕ → ℝ, ∀ i < m, diffNR f n a i = fin (d i) ∧ |d i - diffN n c i| ≤ (q * (1 + κ) ^ n - 1) * (2 ^ n * B) ∧ |diffN n c i| + 1 ≤ 2 ^ n * B
  | 0, a, y, c, q, B, _, ha, hy, hc, _, _ => ⟨y, fun i hi => ⟨ha i hi, by simpa [diffN] using hy i hi, by simpa [diffN] using hc i hi⟩⟩
  | n + 1, a, y, c, q, B, hq, ha, hy, hc, hS, hB => by
    have hκ := C.pos
    have hq1 : 1 ≤ q * (1 + κ) := by nlinarith
    have hp1 : 1 ≤ (1 + κ) ^ n := one_le_pow₀ (by linarith)
    have hp2 : (1:ℝ) ≤ 2 ^ n := one_le_pow₀ (by norm_num)
    have hS' : q * (1 + κ) * (1 + κ) ^ n * (2 ^ n * (2 * B)) ≤ flHi := by
      refine le_trans (le_of_eq ?_) hS; rw [pow_succ, pow_succ]; ring
    have hqB : q * (2 * B) ≤ flHi := by
      refine le_trans ?_ hS'
      have h1 : q ≤ q * (1 + κ) * (1 + κ) ^ n := by nlinarith
      have h2 : 2 * B ≤ 2 ^ n * (2 * B) := le_mul_of_one_le_left (by linarith) hp2
      exact mul_le_mul h1 h2 (by linarith) (by linarith)
    have step : ∀ i, ∃ z, i < m + n → f.r (a (i + 1) - a i) = fin z ∧ |z - (c (i + 1) - c i)| ≤ (q * (1 + κ) - 1) * (2 * B) := by
      intro i
      by_cases hi : i < m + n
      · have h1 := hy i (by omega)
        have h2 := hy (i + 1) (by omega)
        have h3 := hc i (by omega)
        have h4 := hc (i + 1) (by omega)
        have hd : |(y (i + 1) - y i) - (c (i + 1) - c i)| ≤ 2 * ((q - 1) * B) := by
          rw [show (y (i + 1) - y i) - (c (i + 1) - c i) = (y (i + 1) - c (i + 1)) - (y i - c i) by ring]
          exact (abs_sub _ _).trans (by linarith)
        have hx : |y (i + 1) - y i| ≤ q * (2 * B) - 2 := by
          have : |c (i + 1) - c i| ≤ 2 * (B - 1) := (abs_sub _ _).trans (by linarith)
          rw [show y (i + 1) - y i = ((y (i + 1) - y i) - (c (i + 1) - c i)) + (c (i + 1) - c i) by ring]
          refine (abs_add_le _ _).trans ?_
          nlinarith
        obtain ⟨z, ez, hz⟩ := C.rd_abs (show |y (i + 1) - y i| ≤ flHi by linarith)
        refine ⟨z, fun _ => ⟨?_, ?_⟩⟩
        · rw [ha _ (by omega), ha _ (by omega), sub_fin]; exact ez
        · rw [show z - (c (i + 1) - c i) = (z - (y (i + 1) - y i)) + ((y (i + 1) - y i) - (c (i + 1) - c i)) by ring]
          refine (abs_add_le _ _).trans ?_
          have : κ * (1 + |y (i + 1) - y i|) ≤ κ * (q * (2 * B)) := mul_le_mul_of_nonneg_left (by linarith) hκ.le
          nlinarith
      · exact ⟨0, fun h => absurd h hi⟩
    choose z hz using step
    obtain ⟨d, hd⟩ := C.diffN_err m n (a := fun i => f.r (a (i + 1) - a i)) (y := z) (c := fun i => c (i + 1) - c i) (q := q * (1 + κ)) (B := 2 * B) hq1 (fun i hi => (hz i hi).1) (fun i hi => (hz i hi).2)
      (fun i hi => by
        have h3 := hc i (by omega)
        have h4 := hc (i + 1) (by omega)
        have : |c (i + 1) - c i| ≤ |c (i + 1)| + |c i| := abs_sub _ _
        linarith) hS' (by linarith)
    refine ⟨d, fun i hi => ?_⟩
    obtain ⟨e1, e2, e3⟩ := hd i hi
    refine ⟨e1, e2.trans (le_of_eq ?_), e3.trans (le_of_eq ?_)⟩
    · rw [pow_succ, pow_succ]; ring
    · rw [pow_succ]; ring

theorem one_add_pow_le {n : ℕ} (hκ : 0 < κ) (h : 2 * κ * n ≤ 1) : (1 + κ) ^ n - 1 ≤ 2 * κ * n := by
  have h1 : (1 + κ) ^ n ≤ Real.exp (n * κ) := by
    rw [Real.exp_nat_mul]
    exact pow_le_pow_left₀ (by linarith) (by linarith [Real.add_one_le_exp κ]) n
  have h0 : 0 ≤ (n:ℝ) * κ := by positivity
  have := Real.abs_exp_sub_one_le (x := n * κ) (by rw [abs_of_nonneg h0]; linarith)
  rw [abs_of_nonneg h0] at this
  linarith [le_abs_self (Real.exp (n * κ) - 1)]

/-- **C155.** The computed penalty is the exact one up to an absolute error: `κ (28 + 6 D + 3 n)` times `(inv_var + 1) m G²`, where `m` is the number of differences, `G = 2ⁿ (M + 1)` bounds them for
coefficients of size at most `M`, and `D` is the depth of the sum. -/
theorem C155_penalty (C : f.Contract κ) {m n D : ℕ} (o : RTree m) (ho : o.Covers) (hD : o.depth ≤ D) (hDκ : 2 * κ * D ≤ 1) (hn : 2 * κ * n ≤ 1) {c : ℕ → ℝ} {M τ : ℝ} (hc : ∀ i < m + n, |c i| ≤ M)
    (hτ : 0 ≤ τ) (hM0 : 0 ≤ M) (hM : (τ + 1) * (m * (2 ^ n * (M + 1)) ^ 2) ≤ 2 ^ 100) :
    ∃ p, difference_priorR f o (fun i => fin (c i)) (fin τ) n = fin p ∧
      |p - apply_difference_prior (m + n) c τ n| ≤ κ * (28 + 6 * D + 3 * n) * ((τ + 1) * (m * (2 ^ n * (M + 1)) ^ 2)) := by
  have hκ := C.pos
  have hk : κ ≤ 1 / 4096 := C.small.trans (by norm_num)
  have hlen : o.leaves.length = m := by have := ho.length_eq; rwa [List.length_finRange] at this
  have hm : 1 ≤ m := by
    rw [← hlen]
    have : ∀ t : RTree m, 1 ≤ t.leaves.length := by
      intro t
      induction t with
      | leaf i => simp [RTree.leaves]
      | node l r hl _ => simp only [RTree.leaves, List.length_append]; omega
    exact this o
  have hm' : (1:ℝ) ≤ m := by exact_mod_cast hm
  set G : ℝ := 2 ^ n * (M + 1) with hG
  have hG1 : 1 ≤ G := by
    have : (1:ℝ) ≤ 2 ^ n := one_le_pow₀ (by norm_num)
    rw [hG]; nlinarith
  have hGG : G ≤ G ^ 2 := by nlinarith
  have hm2 : G ^ 2 ≤ m * G ^ 2 := le_mul_of_one_le_left (by positivity) hm'
  have hL : m * G ^ 2 ≤ (τ + 1) * (m * G ^ 2) := le_mul_of_one_le_left (by positivity) (by linarith)
  have hbig : (2:ℝ) ^ 100 * 100 ≤ flHi := by unfold flHi; norm_num
  have hpow := one_add_pow_le (n := n) hκ hn
  have hp1 : 1 ≤ (1 + κ) ^ n := one_le_pow₀ (by linarith)
  obtain ⟨d, hd⟩ := C.diffN_err m n (a := fun i => fin (c i)) (y := c) (c := c) (q := 1) (B := M + 1) le_rfl (fun _ _ => rfl) (fun i _ => by simp) (fun i hi => by linarith [hc i hi])
    (by rw [one_mul, ← hG]
        have : (1 + κ) ^ n * G ≤ 2 * G := mul_le_mul_of_nonneg_right (by linarith) (by linarith)
        linarith) (by linarith)
  rw [one_mul, ← hG] at hd
  have hd1 : ∀ i < m, |d i - diffN n c i| ≤ 2 * κ * n * G := fun i hi => (hd i hi).2.1.trans (mul_le_mul_of_nonneg_right hpow (by linarith))
  have hd2 : ∀ i < m, |d i| ≤ 2 * G := fun i hi => by
    have a := hd1 i hi
    have b := (hd i hi).2.2
    have e : 2 * κ * n * G ≤ 1 * G := mul_le_mul_of_nonneg_right hn (by linarith)
    rw [show d i = (d i - diffN n c i) + diffN n c i by ring]
    exact (abs_add_le _ _).trans (by linarith)
  have hsq : ∀ i : Fin m, ∃ v, f.r (fin (d i) * fin (d i)) = fin v ∧ |v - diffN n c i * diffN n c i| ≤ κ * (6 * n + 5) * G ^ 2 ∧ |v| + 1 ≤ 6 * G ^ 2 := by
    intro i
    have a := hd1 i i.2
    have b := hd2 i i.2
    have b' := (hd i i.2).2.2
    have hdd : |d i * d i| ≤ 4 * G ^ 2 := by rw [abs_mul]; nlinarith [abs_nonneg (d i)]
    obtain ⟨v, ev, hv⟩ := C.rd_abs (show |d i * d i| ≤ flHi by linarith)
    have hv' : |v - d i * d i| ≤ κ * (5 * G ^ 2) := hv.trans (mul_le_mul_of_nonneg_left (by nlinarith) hκ.le)
    refine ⟨v, by rw [mul_fin]; exact ev, ?_, ?_⟩
    · have e : |d i * d i - diffN n c i * diffN n c i| ≤ 2 * κ * n * G * (3 * G) := by
        rw [show d i * d i - diffN n c i * diffN n c i = (d i - diffN n c i) * (d i + diffN n c i) by ring, abs_mul]
        exact mul_le_mul a ((abs_add_le _ _).trans (by linarith)) (abs_nonneg _) (by positivity)
      rw [show v - diffN n c i * diffN n c i = (v - d i * d i) + (d i * d i - diffN n c i * diffN n c i) by ring]
      refine (abs_add_le _ _).trans ((add_le_add hv' e).trans (le_of_eq (by ring)))
    · have : |v| ≤ |v - d i * d i| + |d i * d i| := by
        conv_lhs => rw [show v = (v - d i * d i) + d i * d i by ring]
        exact abs_add_le _ _
      have : κ * (5 * G ^ 2) ≤ 1 / 4096 * (5 * G ^ 2) := mul_le_mul_of_nonneg_right hk (by positivity)
      nlinarith
  choose v hv1 hv2 hv3 using hsq
  obtain ⟨s, es, hs1, hs2⟩ := C.sum_abs (a := fun i : Fin m => f.r (diffNR f n (fun i => fin (c i)) i * diffNR f n (fun i => fin (c i)) i)) (x := v)
    (fun i => by rw [(hd i i.2).1]; exact hv1 i) (B := 6 * G ^ 2) hv3 o hD hDκ (by rw [hlen]; linarith)
  rw [hlen] at hs1 hs2
  rw [ho.total] at hs1 hs2
  set S := ∑ i : Fin m, diffN n c i * diffN n c i with hSdef
  have hT : |∑ i, v i - S| ≤ m * (κ * (6 * n + 5) * G ^ 2) := by
    rw [hSdef, ← Finset.sum_sub_distrib]
    refine (Finset.abs_sum_le_sum_abs _ _).trans ((Finset.sum_le_sum fun i _ => hv2 i).trans (le_of_eq ?_))
    simp
  have hsS : |s - S| ≤ κ * (12 * D + 6 * n + 5) * (m * G ^ 2) := by
    rw [show s - S = (s - ∑ i, v i) + (∑ i, v i - S) by ring]
    exact (abs_add_le _ _).trans ((add_le_add hs1 hT).trans (le_of_eq (by ring)))
  have hsabs : |s| ≤ 12 * (m * G ^ 2) := by
    have e : 2 * κ * D * (m * (6 * G ^ 2)) ≤ 1 * (m * (6 * G ^ 2)) := mul_le_mul_of_nonneg_right hDκ (by positivity)
    rw [show s = (s - ∑ i, v i) + ∑ i, v i by ring]
    exact (abs_add_le _ _).trans (by linarith)
  have hτ1 : τ + 1 ≤ (τ + 1) * (m * G ^ 2) := le_mul_of_one_le_right (by linarith) (by linarith)
  have hh0 : |(-1 / 2) * τ| = τ / 2 := by rw [abs_mul, abs_of_nonneg hτ]; norm_num; ring
  obtain ⟨h, eh, hh⟩ := C.rd_abs (show |(-1 / 2) * τ| ≤ flHi by rw [hh0]; linarith)
  rw [hh0] at hh
  have hh' : |h - (-1 / 2) * τ| ≤ κ * (τ + 1) := hh.trans (mul_le_mul_of_nonneg_left (by linarith) hκ.le)
  have hhabs : |h| ≤ τ + 1 := by
    have e : κ * (τ + 1) ≤ 1 / 4096 * (τ + 1) := mul_le_mul_of_nonneg_right hk (by linarith)
    rw [show h = (h - (-1 / 2) * τ) + (-1 / 2) * τ by ring]
    exact (abs_add_le _ _).trans (by rw [hh0]; linarith)
  set A := (τ + 1) * (m * G ^ 2) with hA
  have hhs : |h * s| ≤ 12 * A := by
    rw [abs_mul]
    exact (mul_le_mul hhabs hsabs (abs_nonneg _) (by linarith)).trans (le_of_eq (by rw [hA]; ring))
  obtain ⟨p, ep, hp⟩ := C.rd_abs (show |h * s| ≤ flHi by linarith)
  refine ⟨p, ?_, ?_⟩
  · unfold difference_priorR
    simp only
    rw [es, mul_fin, show f.r (fin (-1 / 2 * τ)) = fin h from eh, mul_fin]
    exact ep
  · have he : apply_difference_prior (m + n) c τ n = (-1 / 2) * τ * S := by
      unfold apply_difference_prior
      rw [Nat.add_sub_cancel, Finset.sum_range, show (-0.5:ℝ) = -1 / 2 by norm_num]
    rw [he, show p - (-1 / 2) * τ * S = (p - h * s) + ((h - (-1 / 2) * τ) * s + (-1 / 2) * τ * (s - S)) by ring]
    have e1 : |p - h * s| ≤ κ * (13 * A) := hp.trans (mul_le_mul_of_nonneg_left (by linarith) hκ.le)
    have e2 : |(h - (-1 / 2) * τ) * s| ≤ κ * (12 * A) := by
      rw [abs_mul]
      exact (mul_le_mul hh' hsabs (abs_nonneg _) (by positivity)).trans (le_of_eq (by rw [hA]; ring))
    have e3 : |(-1 / 2) * τ * (s - S)| ≤ κ * ((6 * D + 3 * n + 3) * A) := by
      rw [abs_mul, hh0]
      calc τ / 2 * |s - S| ≤ τ / 2 * (κ * (12 * D + 6 * n + 5) * (m * G ^ 2)) := mul_le_mul_of_nonneg_left hsS (by linarith)
        _ ≤ (τ + 1) / 2 * (κ * (12 * D + 6 * n + 6) * (m * G ^ 2)) := by
          refine mul_le_mul (by linarith) ?_ (by positivity) (by linarith)
          refine mul_le_mul_of_nonneg_right (mul_le_mul_of_nonneg_left (by linarith) hκ.le) (by positivity)
        _ = _ := by rw [hA]; ring
    refine (abs_add_le _ _).trans ((add_le_add e1 ((abs_add_le _ _).trans (add_le_add e2 e3))).trans (le_of_eq (by ring)))

/-- **C155** (first differences, the default).  Each difference is rounded once only, so that the penalty has a small *relative* error, however small the differences are compared with the coefficients:
at most `12 + 2 D` rounding units.  The differences are zero or between `2⁻⁴⁰` and `2⁴⁰`, the inverse variance between `2⁻²⁰` and `2²⁰`. -/
theorem C155_first (C : f.Contract κ) {m D : ℕ} (o : RTree m) (ho : o.Covers) (hD : o.depth ≤ D) (hDκ : κ * (12 + 2 * D) ≤ 1) (hm : m ≤ 2 ^ 20) {c : ℕ → ℝ} {τ : ℝ}
    (hc : ∀ i < m, Fine 40 (c (i + 1) - c i)) (hτ : Rg 20 τ) :
    ∃ p, difference_priorR f o (fun i => fin (c i)) (fin τ) = fin (-p) ∧ Within (κ * (12 + 2 * D)) (-apply_difference_prior (m + 1) c τ) p := by
  have hκ := C.pos
  have hk : κ ≤ 1 / 4096 := C.small.trans (by norm_num)
  have hτ0 := hτ.pos
  have hDκ0 : 0 ≤ κ * D := by positivity
  have hDe : κ * (12 + 2 * D) = 12 * κ + 2 * κ * D := by ring
  rw [hDe] at hDκ ⊢
  have hsq : ∀ i : Fin m, ∃ v, f.r (f.r (fin (c (i + 1)) - fin (c i)) * f.r (fin (c (i + 1)) - fin (c i))) = fin v ∧ Within (6 * κ) ((c (i + 1) - c i) * (c (i + 1) - c i)) v ∧
      (v = 0 ∨ 3 * flLo ≤ v) ∧ (c (i + 1) - c i) * (c (i + 1) - c i) ≤ 2 ^ 80 ∧ ((c (i + 1) - c i) * (c (i + 1) - c i) = 0 ∨ (2⁻¹:ℝ) ^ 80 ≤ (c (i + 1) - c i) * (c (i + 1) - c i)) := by
    intro i
    have hx := hc i i.2
    set x := c (i + 1) - c i
    obtain ⟨d, ed, rd⟩ := C.fine_round (Rel.refl (x := x)) (by norm_num) (by norm_num) hx
    have hxx : Fine 80 (x * x) := by
      rcases hx with h | h
      · exact .inl (by rw [h, mul_zero])
      · refine .inr ?_
        rw [abs_mul]
        exact ⟨le_trans (by norm_num) (mul_le_mul h.1 h.1 (by positivity) (abs_nonneg _)), (mul_le_mul h.2 h.2 (abs_nonneg _) (by positivity)).trans (by norm_num)⟩
    obtain ⟨v, ev, rv⟩ := C.fine_round (rd.mul rd) (by linarith) (by norm_num) hxx
    have wv := (rv.within (mul_self_nonneg x)).mono (show _ ≤ 6 * κ by linarith) (mul_self_nonneg x)
    refine ⟨v, ?_, wv, ?_, ?_, ?_⟩
    · rw [sub_fin, ed, mul_fin, ev]
    · rcases hxx with h | h
      · left
        obtain ⟨θ, -, e⟩ := rv
        rw [e, h, zero_mul]
      · right
        rw [abs_mul_self] at h
        have e1 : (1:ℝ) / 2 ≤ Real.exp (-(6 * κ)) := by linarith [Real.add_one_le_exp (-(6 * κ))]
        have e2 : 1 / 2 * (2⁻¹:ℝ) ^ 80 ≤ Real.exp (-(6 * κ)) * (x * x) := mul_le_mul e1 h.1 (by positivity) (Real.exp_pos _).le
        exact le_trans (by unfold flLo; norm_num) (e2.trans wv.1)
    · rcases hxx with h | h
      · rw [h]; positivity
      · rw [abs_mul_self] at h; exact h.2
    · rcases hxx with h | h
      · exact .inl h
      · rw [abs_mul_self] at h; exact .inr h.1
  choose v hv1 hv2 hv3 hv4 hv5 using hsq
  set S := ∑ i : Fin m, (c (i + 1) - c i) * (c (i + 1) - c i) with hS
  have hS0 : 0 ≤ S := Finset.sum_nonneg fun i _ => mul_self_nonneg _
  have hS1 : S ≤ 2 ^ 100 := by
    refine (Finset.sum_le_sum fun i _ => hv4 i).trans ?_
    rw [Finset.sum_const, Finset.card_univ, Fintype.card_fin, nsmul_eq_mul]
    have : (m:ℝ) ≤ 2 ^ 20 := by exact_mod_cast hm
    calc (m:ℝ) * 2 ^ 80 ≤ 2 ^ 20 * 2 ^ 80 := mul_le_mul_of_nonneg_right this (by positivity)
      _ = 2 ^ 100 := by norm_num
  have hS2 : S = 0 ∨ (2⁻¹:ℝ) ^ 80 ≤ S := by
    by_cases h : ∀ i : Fin m, (c (i + 1) - c i) * (c (i + 1) - c i) = 0
    · exact .inl (Finset.sum_eq_zero fun i _ => h i)
    · push Not at h
      obtain ⟨i, hi⟩ := h
      exact .inr (((hv5 i).resolve_left hi).trans (Finset.single_le_sum (f := fun i : Fin m => (c (i + 1) - c i) * (c (i + 1) - c i)) (fun j _ => mul_self_nonneg _) (Finset.mem_univ i)))
  have wS : Within (6 * κ) S (∑ i, v i) := Within.sum hv2
  have hv3S : ∑ i, v i ≤ 2 * S := wS.2.trans (mul_le_mul_of_nonneg_right (by
    have := Real.abs_exp_sub_one_le (x := 6 * κ) (by rw [abs_of_pos (by linarith)]; linarith)
    rw [abs_of_pos (show 0 < 6 * κ by linarith)] at this
    linarith [le_abs_self (Real.exp (6 * κ) - 1)]) hS0)
  obtain ⟨s, es, ws⟩ := C.sum_within (a := fun i : Fin m => f.r (f.r (fin (c (i + 1)) - fin (c i)) * f.r (fin (c (i + 1)) - fin (c i)))) hv1 hv3 o hD (by linarith)
    (by rw [ho.total]; have : (6:ℝ) * 2 ^ 100 ≤ flHi := by unfold flHi; norm_num
        linarith)
  rw [ho.total] at ws
  have wsS := wS.trans ws
  have rs : Rel (6 * κ + 2 * κ * D) S s := by
    rcases hS2 with h | h
    · rw [h] at wsS ⊢
      have : s = 0 := le_antisymm (by simpa using wsS.2) (by simpa using wsS.1)
      exact ⟨0, by simp; positivity, by simp [this]⟩
    · exact Rel.of_within (lt_of_lt_of_le (by positivity) h) wsS
  have hτabs : |(-1 / 2) * τ| = τ / 2 := by rw [abs_mul, abs_of_pos hτ0]; norm_num; ring
  obtain ⟨h, eh, rh⟩ := C.fine_round (Rel.refl (x := (-1 / 2) * τ)) (by norm_num) (show 21 ≤ 124 by norm_num)
    (.inr (by rw [hτabs]; exact ⟨by have := hτ.1; norm_num at this ⊢; linarith, by have := hτ.2; norm_num at this ⊢; linarith⟩))
  obtain ⟨p, ep, rp⟩ := C.fine_round (rh.mul rs) (by linarith) (show 124 ≤ 124 by norm_num) (by
    rcases hS2 with h0 | h0
    · exact .inl (by rw [h0, mul_zero])
    · refine .inr ?_
      rw [abs_mul, hτabs, abs_of_nonneg hS0]
      have t1 : (2⁻¹:ℝ) ^ 21 ≤ τ / 2 := by have := hτ.1; norm_num at this ⊢; linarith
      have t2 : τ / 2 ≤ 2 ^ 20 := by have := hτ.2; norm_num at this ⊢; linarith
      exact ⟨le_trans (by norm_num) (mul_le_mul t1 h0 (by positivity) (by linarith)), (mul_le_mul t2 hS1 hS0 (by positivity)).trans (by norm_num)⟩)
  have he : -apply_difference_prior (m + 1) c τ = -((-1 / 2) * τ * S) := by
    unfold apply_difference_prior
    rw [Nat.add_sub_cancel, Finset.sum_range, show (-0.5:ℝ) = -1 / 2 by norm_num]
    rfl
  have h0 : 0 ≤ -((-1 / 2) * τ * S) := by nlinarith [mul_nonneg hτ0.le hS0]
  refine ⟨-p, ?_, ?_⟩
  · rw [neg_neg]
    show f.r (f.r (fin (-1 / 2) * fin τ) * f.sum (fun i : Fin m => f.r (f.r (fin (c (i + 1)) - fin (c i)) * f.r (fin (c (i + 1)) - fin (c i)))) o) = fin p
    rw [es, mul_fin, eh, mul_fin, ep]
  · rw [he]
    exact (rp.neg.within h0).mono (by linarith) h0

theorem diffNR_zero (C : f.Contract κ) (m : ℕ) : ∀ (n : ℕ) {a : ℕ → F}, (∀ i < m + n, a i = fin 0) → ∀ i < m, diffNR f n a i = fin 0
  | 0, _, h => fun i hi => h i hi
  | n + 1, a, h => fun i hi => by
    refine diffNR_zero C m n (a := fun i => f.r (a (i + 1) - a i)) (fun j hj => ?_) i hi
    show f.r (a (j + 1) - a j) = fin 0
    rw [h _ (by omega), h _ (by omega), sub_fin, sub_self]
    exact C.rd_zero

/-- **C155** (constants).  Equal coefficients have exactly the penalty zero, at every order of differences and for every order of summation. -/
theorem C155_constant (C : f.Contract κ) {m : ℕ} (n : ℕ) (o : RTree m) {a : ℕ → F} {v τ : ℝ} (h : ∀ i < m + (n + 1), a i = fin v) (hτ : |τ| ≤ 2 ^ 100) :
    difference_priorR f o a (fin τ) (n + 1) = fin 0 := by
  have h0 : ∀ i < m, diffNR f (n + 1) a i = fin 0 := by
    refine diffNR_zero C m n (a := fun i => f.r (a (i + 1) - a i)) (fun j hj => ?_)
    show f.r (a (j + 1) - a j) = fin 0
    rw [h _ (by omega), h _ (by omega), sub_fin, sub_self]
    exact C.rd_zero
  have hs : ∀ t : RTree m, f.sum (fun i : Fin m => f.r (diffNR f (n + 1) a i * diffNR f (n + 1) a i)) t = fin 0 := by
    intro t
    induction t with
    | leaf i =>
      show f.r (diffNR f (n + 1) a i * diffNR f (n + 1) a i) = fin 0
      rw [h0 i i.2, mul_fin, mul_zero]; exact C.rd_zero
    | node l r hl hr =>
      show f.r (f.sum _ l + f.sum _ r) = fin 0
      rw [hl, hr, add_fin, add_zero]; exact C.rd_zero
  obtain ⟨u, eu, -⟩ := C.rd_abs (show |(-1 / 2) * τ| ≤ flHi by
    rw [abs_mul]
    have e : |(-1 / 2 : ℝ)| = 1 / 2 := by norm_num
    have hb : (2:ℝ) ^ 100 ≤ flHi := by unfold flHi; norm_num
    rw [e]; linarith [abs_nonneg τ])
  unfold difference_priorR
  simp only
  rw [hs, mul_fin, show f.r (fin (-1 / 2 * τ)) = fin u from eu, mul_fin, mul_zero]
  exact C.rd_zero

theorem diffNR_exact : ∀ (n : ℕ) (c : ℕ → ℝ), diffNR Arith.exact n (fun i => fin (c i)) = fun i => fin (diffN n c i)
  | 0, _ => rfl
  | n + 1, c => by
    have : (fun i => Arith.exact.r (fin (c (i + 1)) - fin (c i))) = fun i => fin (c (i + 1) - c i) := by funext i; rw [exact_r, sub_fin]
    show diffNR Arith.exact n (fun i => Arith.exact.r (fin (c (i + 1)) - fin (c i))) = _
    rw [this, diffNR_exact n]
    rfl

/-- **C155.** Without rounding this is the penalty of C30. -/
theorem C155_exact {m : ℕ} (o : RTree m) (ho : o.Covers) (c : ℕ → ℝ) (τ : ℝ) (n : ℕ) : difference_priorR Arith.exact o (fun i => fin (c i)) (fin τ) n = fin (apply_difference_prior (m + n) c τ n) := by
  unfold difference_priorR apply_difference_prior
  simp only [diffNR_exact, exact_r, mul_fin]
  rw [exact_sum _ _ ho, sum_fin, mul_fin, Nat.add_sub_cancel, Finset.sum_range, show (-0.5:ℝ) = -1 / 2 by norm_num]

/-- three coefficients not on a line -/
def bentCoefs (i : ℕ) : ℝ := if i = 0 then -(2⁻¹ ^ 25) else i

/-- **C155**, second differences: the relative error is not small.  The coefficients `-2⁻²⁵, 1, 2` are not on a line and have a negative penalty, the computed penalty is zero. -/
theorem C155_second_fails : difference_priorR binary32 (.leaf (0 : Fin 1)) (fun i => fin (bentCoefs i)) 1 2 = fin 0 ∧ apply_difference_prior 3 bentCoefs 1 2 < 0 := by
  have C := binary32_contract
  have e0 : bentCoefs 0 = -(2⁻¹ ^ 25) := by simp [bentCoefs]
  have e1 : bentCoefs 1 = 1 := by simp [bentCoefs]
  have e2 : bentCoefs 2 = 2 := by simp [bentCoefs]
  have r1 : rd32 1 = fin 1 := by have := C.rd_nat 1 (by norm_num); rw [Nat.cast_one] at this; exact this
  have d0 : binary32.r (fin (bentCoefs 1) - fin (bentCoefs 0)) = fin 1 := by
    rw [sub_fin, e0, e1]
    have hn : near32 (1 - -(2⁻¹ ^ 25)) = 1 := by
      rw [near32_eq (e := 0) (k := 8388608) (by norm_num) (by norm_num) (by norm_num) (by norm_num) (by norm_num)]; norm_num
    exact rd32_fin_iff.2 ⟨hn.symm, by rw [hn]; norm_num, by rw [hn]; norm_num⟩
  have d1 : binary32.r (fin (bentCoefs 2) - fin (bentCoefs 1)) = fin 1 := by
    rw [sub_fin, e1, e2, show (2:ℝ) - 1 = 1 by norm_num]; exact r1
  constructor
  · have hd : diffNR binary32 2 (fun i => fin (bentCoefs i)) 0 = fin 0 := by
      show binary32.r (binary32.r (fin (bentCoefs 2) - fin (bentCoefs 1)) - binary32.r (fin (bentCoefs 1) - fin (bentCoefs 0))) = fin 0
      rw [d0, d1, sub_fin, sub_self]; exact C.rd_zero
    obtain ⟨u, eu, -⟩ := C.rd_abs (show |(-1 / 2 : ℝ) * 1| ≤ flHi by unfold flHi; norm_num)
    unfold difference_priorR
    show binary32.r (binary32.r (fin (-1 / 2) * fin 1) * binary32.r (diffNR binary32 2 (fun i => fin (bentCoefs i)) 0 * diffNR binary32 2 (fun i => fin (bentCoefs i)) 0)) = fin 0
    rw [hd, mul_fin, mul_fin, mul_zero, show binary32.r (fin 0) = fin 0 from C.rd_zero, show binary32.r (fin (-1 / 2 * 1)) = fin u from eu, mul_fin, mul_zero]
    exact C.rd_zero
  · unfold apply_difference_prior
    simp only [diffN, Nat.reduceSub, Finset.sum_range_one, Nat.reduceAdd, zero_add, e0, e1, e2]
    norm_num

/-- ten coefficients up to 4 in size, first differences, inverse variance up to 100: single precision misses the penalty by at most 1 -/
example {c : ℕ → ℝ} {τ : ℝ} (hc : ∀ i < 9 + 1, |c i| ≤ 4) (h0 : 0 ≤ τ) (h1 : τ ≤ 100) (o : RTree 9) (ho : o.Covers) (hD : o.depth ≤ 8) :
    ∃ p, difference_priorR binary32 o (fun i => fin (c i)) (fin τ) 1 = fin p ∧ |p - apply_difference_prior 10 c τ 1| ≤ 1 := by
  obtain ⟨p, ep, hp⟩ := C155_penalty (n := 1) (D := 8) binary32_contract o ho hD (by norm_num) (by norm_num) hc h0 (by norm_num) (by norm_num; linarith)
  refine ⟨p, ep, hp.trans ?_⟩
  norm_num
  linarith

/-- the same coefficients, steps between `2⁻²⁰` and 8 in size: relative error below `2⁻¹⁸` -/
example {c : ℕ → ℝ} {τ : ℝ} (hc : ∀ i < 9, Fine 20 (c (i + 1) - c i)) (h0 : 1 ≤ τ) (h1 : τ ≤ 100) (o : RTree 9) (ho : o.Covers) (hD : o.depth ≤ 8) :
    ∃ p, difference_priorR binary32 o (fun i => fin (c i)) (fin τ) = fin (-p) ∧ Within (2⁻¹ ^ 18) (-apply_difference_prior 10 c τ) p := by
  obtain ⟨p, ep, wp⟩ := C155_first (D := 8) binary32_contract o ho hD (by norm_num) (by norm_num) (c := c) (τ := τ)
    (fun i hi => (hc i hi).imp id fun h => ⟨le_trans (by norm_num) h.1, h.2.trans (by norm_num)⟩) ⟨by norm_num; linarith, by norm_num; linarith⟩
  exact ⟨p, ep, wp.mono (by norm_num) (by have := C30_penalty_nonpos 10 1 c τ (by linarith); linarith)⟩

end GW
end
