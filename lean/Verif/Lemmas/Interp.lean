import Verif.Arr

/-! # Facts about the modelled `jnp.interp` on strictly increasing tables -/

open Finset
noncomputable section

/-- strictly increasing on the first `n` indices -/
def IncOn (n : ℕ) (x : ℕ → ℝ) : Prop := ∀ i, i + 1 < n → x i < x (i + 1)

theorem IncOn.lt {n : ℕ} {x : ℕ → ℝ} (h : IncOn n x) {i j : ℕ} (hij : i < j) (hj : j < n) : x i < x j := by
  induction j, hij using Nat.le_induction with
  | base => exact h i hj
  | succ j hj' ih => exact (ih (by omega)).trans (h j hj)

theorem IncOn.le {n : ℕ} {x : ℕ → ℝ} (h : IncOn n x) {i j : ℕ} (hij : i ≤ j) (hj : j < n) : x i ≤ x j := by
  rcases hij.eq_or_lt with rfl | h'
  · exact le_refl _
  · exact (h.lt h' hj).le

theorem IncOn.strictMono {n : ℕ} {x : ℕ → ℝ} (h : StrictMono x) : IncOn n x := fun i _ => h (Nat.lt_succ_self i)

theorem countLE_cell {n : ℕ} {xp : ℕ → ℝ} (h : IncOn n xp) {i : ℕ} (hi : i + 1 < n) {x : ℝ}
    (h1 : xp i ≤ x) (h2 : x < xp (i + 1)) : countLE n xp x = i + 1 := by
  unfold countLE
  have : (range n).filter (fun j => xp j ≤ x) = range (i + 1) := by
    ext j
    simp only [mem_filter, mem_range]
    constructor
    · rintro ⟨hj, hjx⟩
      by_contra hc
      have := h.le (i := i + 1) (j := j) (by omega) hj
      linarith
    · intro hj
      exact ⟨by omega, (h.le (by omega) (by omega)).trans h1⟩
  rw [this, card_range]

theorem countLE_top {n : ℕ} {xp : ℕ → ℝ} (h : IncOn n xp) (hn : 0 < n) {x : ℝ} (h1 : xp (n - 1) ≤ x) :
    countLE n xp x = n := by
  unfold countLE
  rw [filter_true_of_mem, card_range]
  intro j hj
  exact (h.le (by have := mem_range.1 hj; omega) (by omega)).trans h1

/-- inside the table, `interp` is linear interpolation on the cell containing the query -/
theorem interp_cell {n : ℕ} {xp fp : ℕ → ℝ} (h : IncOn n xp) {i : ℕ} (hi : i + 1 < n) {x : ℝ}
    (h1 : xp i ≤ x) (h2 : x ≤ xp (i + 1)) :
    interp n xp fp x = fp i + ((x - xp i) / (xp (i + 1) - xp i)) * (fp (i + 1) - fp i) := by
  have hlt := h i hi
  have h0 : ¬ x < xp 0 := not_lt.2 ((h.le (Nat.zero_le i) (by omega)).trans h1)
  have hl : ¬ xp (n - 1) < x := not_lt.2 (h2.trans (h.le (by omega) (by omega)))
  unfold interp
  simp only [if_neg h0, if_neg hl]
  rcases lt_or_eq_of_le h2 with h2' | h2'
  · rw [countLE_cell h hi h1 h2']
    have e : min (max (i + 1) 1) (n - 1) = i + 1 := by omega
    rw [e, Nat.add_sub_cancel, if_neg (by linarith)]
  · by_cases hn : i + 2 < n
    · have hlt2 := h (i + 1) hn
      rw [countLE_cell h hn h2'.ge (by rw [h2']; exact hlt2)]
      have e : min (max (i + 1 + 1) 1) (n - 1) = i + 2 := by omega
      have e2 : i + 2 - 1 = i + 1 := by omega
      rw [e, e2, if_neg (by have : xp (i + 1) < xp (i + 2) := hlt2; intro hc; linarith), h2', sub_self, zero_div, zero_mul, add_zero,
        div_self (by linarith), one_mul]; ring
    · have hn' : n = i + 2 := by omega
      rw [countLE_top h (by omega) (by rw [h2', hn']; simp)]
      have e : min (max n 1) (n - 1) = i + 1 := by omega
      rw [e, Nat.add_sub_cancel, if_neg (by linarith)]

theorem exists_cell {n : ℕ} (hn : 2 ≤ n) {xp : ℕ → ℝ} {x : ℝ} (h0 : xp 0 ≤ x) (hl : x ≤ xp (n - 1)) :
    ∃ i, i + 1 < n ∧ xp i ≤ x ∧ x ≤ xp (i + 1) := by
  by_contra hc
  push Not at hc
  have key : ∀ i, i < n → xp i ≤ x := by
    intro i hi
    induction i with
    | zero => exact h0
    | succ i ih => exact (hc i hi (ih (by omega))).le
  have h2 := hc (n - 2) (by omega) (key _ (by omega))
  have e : n - 2 + 1 = n - 1 := by omega
  rw [e] at h2; linarith

theorem interp_node {n : ℕ} (hn : 2 ≤ n) {xp fp : ℕ → ℝ} (h : IncOn n xp) {i : ℕ} (hi : i < n) :
    interp n xp fp (xp i) = fp i := by
  by_cases h1 : i + 1 < n
  · rw [interp_cell h h1 (le_refl _) (h i h1).le]; simp
  · obtain ⟨j, rfl⟩ : ∃ j, i = j + 1 := ⟨i - 1, by omega⟩
    have := h j hi
    rw [interp_cell h hi this.le (le_refl _), div_self (by linarith)]; ring

theorem interp_below {n : ℕ} {xp fp : ℕ → ℝ} {x : ℝ} (h : x < xp 0) : interp n xp fp x = fp 0 := by
  simp [interp, h]

theorem interp_above {n : ℕ} {xp fp : ℕ → ℝ} (hx : IncOn n xp) (hn : 0 < n) {x : ℝ} (h : xp (n - 1) < x) :
    interp n xp fp x = fp (n - 1) := by
  have : ¬ x < xp 0 := not_lt.2 ((hx.le (Nat.zero_le _) (by omega)).trans h.le)
  simp [interp, h, this]

/-- on a cell the interpolant lies between the end values -/
theorem interp_cell_mem {n : ℕ} {xp fp : ℕ → ℝ} (h : IncOn n xp) {i : ℕ} (hi : i + 1 < n) (hf : fp i ≤ fp (i + 1))
    {x : ℝ} (h1 : xp i ≤ x) (h2 : x ≤ xp (i + 1)) :
    fp i ≤ interp n xp fp x ∧ interp n xp fp x ≤ fp (i + 1) := by
  have hlt := h i hi
  rw [interp_cell h hi h1 h2]
  have a : 0 ≤ (x - xp i) / (xp (i + 1) - xp i) := div_nonneg (by linarith) (by linarith)
  have b : (x - xp i) / (xp (i + 1) - xp i) ≤ 1 := by rw [div_le_one (by linarith)]; linarith
  constructor
  · nlinarith
  · nlinarith

/-- interpolating the swapped table undoes interpolation (both columns strictly increasing) -/
theorem interp_inverse {n : ℕ} (hn : 2 ≤ n) {xp fp : ℕ → ℝ} (hx : IncOn n xp) (hf : IncOn n fp) {x : ℝ}
    (h0 : xp 0 ≤ x) (hl : x ≤ xp (n - 1)) : interp n fp xp (interp n xp fp x) = x := by
  obtain ⟨i, hi, h1, h2⟩ := exists_cell hn h0 hl
  have hlx := hx i hi
  have hlf := hf i hi
  have hm := interp_cell_mem hx hi hlf.le h1 h2
  rw [interp_cell hf hi hm.1 hm.2, interp_cell hx hi h1 h2]
  have e1 : xp (i + 1) - xp i ≠ 0 := by linarith
  have e2 : fp (i + 1) - fp i ≠ 0 := by linarith
  field_simp
  ring

/-- `interp` of a non-decreasing column is non-decreasing over the whole real line -/
theorem interp_mono {n : ℕ} (hn : 2 ≤ n) {xp fp : ℕ → ℝ} (hx : IncOn n xp)
    (hf : ∀ i, i + 1 < n → fp i ≤ fp (i + 1)) : Monotone (interp n xp fp) := by
  have hfle : ∀ i j, i ≤ j → j < n → fp i ≤ fp j := by
    intro i j hij
    induction j, hij using Nat.le_induction with
    | base => intro _; exact le_refl _
    | succ j _ ih => intro hj; exact (ih (by omega)).trans (hf j hj)
  have hrange : ∀ x, fp 0 ≤ interp n xp fp x ∧ interp n xp fp x ≤ fp (n - 1) := by
    intro x
    rcases lt_or_ge x (xp 0) with h | h
    · rw [interp_below h]; exact ⟨le_refl _, hfle _ _ (by omega) (by omega)⟩
    rcases lt_or_ge (xp (n - 1)) x with h' | h'
    · rw [interp_above hx (by omega) h']; exact ⟨hfle _ _ (by omega) (by omega), le_refl _⟩
    obtain ⟨i, hi, h1, h2⟩ := exists_cell hn h h'
    have := interp_cell_mem hx hi (hf i hi) h1 h2
    exact ⟨(hfle 0 i (by omega) (by omega)).trans this.1, this.2.trans (hfle _ _ (by omega) (by omega))⟩
  intro x y hxy
  rcases lt_or_ge x (xp 0) with h | h
  · rw [interp_below h]; exact (hrange y).1
  rcases lt_or_ge (xp (n - 1)) y with h' | h'
  · rw [interp_above hx (by omega) h']; exact (hrange x).2
  obtain ⟨i, hi, h1, h2⟩ := exists_cell hn h (hxy.trans h')
  obtain ⟨j, hj, h3, h4⟩ := exists_cell hn (h.trans hxy) h'
  rcases lt_trichotomy i j with hij | rfl | hij
  · exact (interp_cell_mem hx hi (hf i hi) h1 h2).2.trans
      ((hfle _ _ hij (by omega)).trans (interp_cell_mem hx hj (hf j hj) h3 h4).1)
  · rw [interp_cell hx hi h1 h2, interp_cell hx hi h3 h4]
    have hlt := hx i hi
    have : (x - xp i) / (xp (i + 1) - xp i) ≤ (y - xp i) / (xp (i + 1) - xp i) :=
      div_le_div_of_nonneg_right (by linarith) (by linarith)
    nlinarith [hf i hi]
  · have : x = y := le_antisymm hxy (h4.trans ((hx.le hij (by omega)).trans h1))
    rw [this]

theorem interp_range {n : ℕ} (hn : 2 ≤ n) {xp fp : ℕ → ℝ} (hx : IncOn n xp)
    (hf : ∀ i, i + 1 < n → fp i ≤ fp (i + 1)) (x : ℝ) :
    fp 0 ≤ interp n xp fp x ∧ interp n xp fp x ≤ fp (n - 1) := by
  constructor
  · rcases lt_or_ge x (xp 0) with h | h
    · rw [interp_below h]
    · have := interp_mono hn hx hf h
      rwa [interp_node hn hx (by omega)] at this
  · rcases lt_or_ge (xp (n - 1)) x with h | h
    · rw [interp_above hx (by omega) h]
    · have := interp_mono hn hx hf h
      rwa [interp_node hn hx (by omega)] at this

theorem interp_nonneg {n : ℕ} (hn : 2 ≤ n) {xp fp : ℕ → ℝ} (hx : IncOn n xp) (hf : ∀ i < n, 0 ≤ fp i) (x : ℝ) :
    0 ≤ interp n xp fp x := by
  rcases lt_or_ge x (xp 0) with h | h
  · rw [interp_below h]; exact hf 0 (by omega)
  rcases lt_or_ge (xp (n - 1)) x with h' | h'
  · rw [interp_above hx (by omega) h']; exact hf _ (by omega)
  obtain ⟨i, hi, h1, h2⟩ := exists_cell hn h h'
  have hlt := hx i hi
  rw [interp_cell hx hi h1 h2]
  have a : 0 ≤ (x - xp i) / (xp (i + 1) - xp i) := div_nonneg (by linarith) (by linarith)
  have b : (x - xp i) / (xp (i + 1) - xp i) ≤ 1 := by rw [div_le_one (by linarith)]; linarith
  have := hf i (by omega)
  have := hf (i + 1) hi
  nlinarith

end
