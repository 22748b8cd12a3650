import Verif.Lemmas.BSpline

/-! The default knots, in closed form. -/

open Finset
noncomputable section
open Classical
namespace GW

/-- extended knots for `m` equally spaced interior knots are the arithmetic progression through the domain ends -/
theorem extendKnots_get {lo hi dx : ℝ} {m k : ℕ} (hm : 2 ≤ m) (hk : 1 ≤ k)
    (hdx : dx = (hi - lo) / ((m : ℝ) - 1)) (j : ℕ) :
    (extendKnots lo hi dx m k).get j = lo + ((j : ℝ) - ((k : ℝ) - 1)) * dx := by
  unfold extendKnots
  rw [linspace_get]
  have hm' : (2 : ℝ) ≤ m := by exact_mod_cast hm
  have hk' : (1 : ℝ) ≤ k := by exact_mod_cast hk
  have hc : ((m + (k - 1) * 2 : ℕ) : ℝ) = m + (k - 1) * 2 := by
    push_cast [Nat.cast_sub hk]; ring
  rw [hc]
  have h1 : (m : ℝ) - 1 ≠ 0 := by intro h; linarith
  have h2 : (m : ℝ) + (k - 1) * 2 - 1 ≠ 0 := by intro h; nlinarith
  have hh : hi - lo = dx * ((m : ℝ) - 1) := by rw [hdx]; field_simp
  have : (hi + dx * ((k:ℝ) - 1) - (lo - dx * ((k:ℝ) - 1))) / ((m:ℝ) + (k - 1) * 2 - 1) = dx := by
    rw [div_eq_iff h2]; linear_combination hh
  rw [this]; ring

/-- the default constructor, in closed form -/
theorem init_default {nDf k : ℕ} {lo hi : ℝ} (hk : 1 ≤ k) (hn : k ≤ nDf) :
    ∃ s : Spline, Spline.init nDf none none lo hi k = .ok s ∧ s.order = k ∧ s.N = nDf ∧ s.lo = lo ∧ s.hi = hi ∧
      s.knots.len = nDf + k ∧
      ∀ j, s.knots.get j = lo + ((j : ℝ) - ((k : ℝ) - 1)) * ((hi - lo) / ((nDf : ℝ) - k + 1)) := by
  have hm : 2 ≤ nDf + 2 - k := by omega
  refine ⟨⟨k, nDf, lo, hi, extendKnots lo hi
    ((linspace lo hi (nDf + 2 - k)).get 1 - (linspace lo hi (nDf + 2 - k)).get 0) (nDf + 2 - k) k⟩,
    ?_, rfl, rfl, rfl, rfl, ?_, ?_⟩
  · unfold Spline.init
    have h1 : ¬ (nDf + 2 < k) := by omega
    have h2 : ¬ ((linspace lo hi (nDf + 2 - k)).len < 2) := by
      change ¬ (nDf + 2 - k < 2); omega
    have h3 : (linspace lo hi (nDf + 2 - k)).len = nDf + 2 - k := rfl
    simp only [h1, if_false, pure_bind, h2]
    rw [if_pos]
    · rfl
    · change (nDf + 2 - k) + (k - 1) * 2 = nDf + k; omega
  · change (nDf + 2 - k) + (k - 1) * 2 = nDf + k; omega
  · intro j
    have hc : ((nDf + 2 - k : ℕ) : ℝ) - 1 = (nDf : ℝ) - k + 1 := by
      rw [Nat.cast_sub (by omega)]; push_cast; ring
    have hd : (linspace lo hi (nDf + 2 - k)).get 1 - (linspace lo hi (nDf + 2 - k)).get 0
        = (hi - lo) / ((nDf : ℝ) - k + 1) := by
      rw [linspace_get, linspace_get, hc]; push_cast; ring
    simp only [hd]
    exact extendKnots_get hm hk (by rw [hc]) j

theorem init_default_eq {nDf k : ℕ} {lo hi : ℝ} (hk : 1 ≤ k) (hn : k ≤ nDf) {s : Spline}
    (hs : Spline.init nDf none none lo hi k = .ok s) : s.order = k ∧ s.N = nDf ∧ s.lo = lo ∧ s.hi = hi ∧
      s.knots.len = nDf + k ∧
      ∀ j, s.knots.get j = lo + ((j : ℝ) - ((k : ℝ) - 1)) * ((hi - lo) / ((nDf : ℝ) - k + 1)) := by
  obtain ⟨s', h', h⟩ := init_default (lo := lo) (hi := hi) hk hn
  rw [h'] at hs
  cases hs
  exact h

theorem default_den_pos {nDf k : ℕ} (hn : k ≤ nDf) : 0 < (nDf : ℝ) - k + 1 := by
  have : (k : ℝ) ≤ nDf := by exact_mod_cast hn
  linarith

/-- the default knots are strictly increasing, with every gap equal to the knot spacing -/
theorem init_default_mono {nDf k : ℕ} {lo hi : ℝ} (hk : 1 ≤ k) (hn : k ≤ nDf) (hlt : lo < hi) {s : Spline}
    (hs : Spline.init nDf none none lo hi k = .ok s) : StrictMono s.knots.get := by
  obtain ⟨-, -, -, -, -, hget⟩ := init_default_eq hk hn hs
  have hp : 0 < (hi - lo) / ((nDf : ℝ) - k + 1) := div_pos (by linarith) (default_den_pos hn)
  intro i j hij
  have : (i : ℝ) < j := by exact_mod_cast hij
  rw [hget, hget]
  nlinarith

theorem init_default_gap {nDf k : ℕ} {lo hi : ℝ} (hk : 1 ≤ k) (hn : k ≤ nDf) {s : Spline}
    (hs : Spline.init nDf none none lo hi k = .ok s) (i : ℕ) :
    s.knots.get (i + 1) - s.knots.get i = (hi - lo) / ((nDf : ℝ) - k + 1) := by
  obtain ⟨-, -, -, -, -, hget⟩ := init_default_eq hk hn hs
  rw [hget, hget]; push_cast; ring

theorem init_default_first {nDf k : ℕ} {lo hi : ℝ} (hk : 1 ≤ k) (hn : k ≤ nDf) {s : Spline}
    (hs : Spline.init nDf none none lo hi k = .ok s) : s.knots.get (k - 1) = lo := by
  obtain ⟨-, -, -, -, -, hget⟩ := init_default_eq hk hn hs
  rw [hget, Nat.cast_sub hk]; push_cast; ring

theorem init_default_last {nDf k : ℕ} {lo hi : ℝ} (hk : 1 ≤ k) (hn : k ≤ nDf) {s : Spline}
    (hs : Spline.init nDf none none lo hi k = .ok s) : s.knots.get nDf = hi := by
  obtain ⟨-, -, -, -, -, hget⟩ := init_default_eq hk hn hs
  have := (default_den_pos hn).ne'
  rw [hget]; field_simp; ring

theorem Spline.bBase_eq (s : Spline) (i : ℕ) (x : ℝ) : s.bBase i x = bsp s.knots.get x s.order i := rfl

/-- clamp an index function to the array: reads beyond the end repeat the last entry -/
def clampIdx (n : ℕ) (t : ℕ → ℝ) (j : ℕ) : ℝ := t (min j (n - 1))

theorem clampIdx_mono {n : ℕ} {t : ℕ → ℝ} (h : ∀ i j, i ≤ j → j < n → t i ≤ t j) (hn : 0 < n) :
    Monotone (clampIdx n t) := by
  intro i j hij
  exact h _ _ (min_le_min_right _ hij) (by omega)

theorem clampIdx_eq {n : ℕ} {t : ℕ → ℝ} {j : ℕ} (h : j < n) : clampIdx n t j = t j := by
  unfold clampIdx; rw [min_eq_left (by omega)]

theorem basis_clamp {n : ℕ} {t : ℕ → ℝ} {k i : ℕ} (h : i + k < n) (x : ℝ) :
    basis t x k i = basis (clampIdx n t) x k i :=
  basis_congr x k i fun j _ h2 => (clampIdx_eq (by omega)).symm

end GW
end
