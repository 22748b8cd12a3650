import Verif.Props.ChiP

/-!
# C63: the density of `χ_p` given `χ_eff` and `q`
-/

noncomputable section
open Classical MeasureTheory
namespace GW

/-- the uniforms are in `[0, 1)` -/
def URow.ok (u : URow) : Prop := 0 ≤ u.u1 ∧ u.u1 < 1 ∧ 0 ≤ u.u2 ∧ u.u2 < 1 ∧ 0 ≤ u.u3 ∧ u.u3 < 1

/-- what every stored row satisfies -/
structure RowOk (a_max : ℝ) (r : SpinRow) : Prop where
  a1 : 0 ≤ r.a1 ∧ r.a1 ≤ a_max
  a2 : 0 ≤ r.a2 ∧ (0 < a_max → r.a2 < a_max) ∧ r.a2 ≤ a_max
  c2 : -1 ≤ r.cost2 ∧ r.cost2 ≤ 1

theorem mkRow_ok {a_max : ℝ} (ha : 0 ≤ a_max) {u : URow} (hu : u.ok) : RowOk a_max (mkRow a_max u) := by
  obtain ⟨h1, h2, h3, h4, h5, h6⟩ := hu
  exact ⟨⟨mul_nonneg h1 ha, by simp only [mkRow]; nlinarith⟩, ⟨mul_nonneg h3 ha, fun h => by simp only [mkRow]; nlinarith, by simp only [mkRow]; nlinarith⟩,
    ⟨by simp only [mkRow]; linarith, by simp only [mkRow]; linarith⟩⟩

theorem rounds_ok {n : ℕ} {χ q a : ℝ} (ha : 0 ≤ a) {stream : ℕ → Fin n → URow} (hs : ∀ k i, (stream k i).ok) (k : ℕ) (i : Fin n) :
    RowOk a (rounds χ q a stream k i) := by
  induction k with
  | zero => exact mkRow_ok ha (hs 0 i)
  | succ k ih =>
    simp only [rounds, redraw]
    split_ifs
    · exact mkRow_ok ha (hs _ i)
    · exact ih

/-- **C63.** Whatever the random stream, when the loop ends every stored draw with `a1 ≠ 0` is a physical configuration: spins
in `[0, a_max]`, both tilt cosines in `[-1, 1]`, and its effective spin is exactly the requested one.  Partial; missing: termination and draws with NaN entries: `C63_unreachable_fails`, `C63_nan_fails`, `C63_amax_fails`. -/
theorem C63_accepted_partial {n : ℕ} {χ q a : ℝ} (hq : 0 < q) (ha : 0 < a) {stream : ℕ → Fin n → URow} (hs : ∀ k i, (stream k i).ok)
    {k : ℕ} (hend : loopEnds χ q a stream k) (i : Fin n) (h1 : (rounds χ q a stream k i).a1 ≠ 0) :
    let r := rounds χ q a stream k i
    ∃ c1 : ℝ, cost1 χ q r = F.fin c1 ∧ -1 ≤ c1 ∧ c1 ≤ 1 ∧ 0 < r.a1 ∧ r.a1 ≤ a ∧ 0 ≤ r.a2 ∧ r.a2 ≤ a ∧
      -1 ≤ r.cost2 ∧ r.cost2 ≤ 1 ∧ chieff q r.a1 r.a2 c1 r.cost2 = χ := by
  intro r
  have hr : RowOk a r := rounds_ok ha.le hs k i
  have he := hend i
  change ¬ unphysical (cost1 χ q r) at he
  have hc : cost1 χ q r = F.fin ((χ * (1 + q) - q * r.a2 * r.cost2) / r.a1) := by rw [cost1, F.div_fin h1]
  rw [hc, unphysical, F.lt_fin, F.gt_fin, not_or, not_lt, not_lt] at he
  refine ⟨_, hc, he.1, he.2, lt_of_le_of_ne hr.a1.1 (Ne.symm h1), hr.a1.2, hr.a2.1, hr.a2.2.2, hr.c2.1, hr.c2.2, ?_⟩
  unfold chieff
  have : (1 + q) ≠ 0 := by linarith
  have h2 : r.a1 ≠ 0 := h1
  field_simp
  ring

/-- **C63.** Rows that are already physical are kept by later rounds, and once the loop has ended nothing changes. -/
theorem C63_kept {n : ℕ} {χ q a : ℝ} {stream : ℕ → Fin n → URow} (k : ℕ) (i : Fin n)
    (h : ¬ unphysical (cost1 χ q (rounds χ q a stream k i))) (m : ℕ) :
    rounds χ q a stream (k + m) i = rounds χ q a stream k i := by
  induction m with
  | zero => rfl
  | succ m ih => rw [← Nat.add_assoc, rounds, redraw, if_neg (by rw [ih]; exact h), ih]

/-- **C63 is false of the code.** For an effective spin no configuration can reach (`|χ_eff| ≥ a_max`: the draws are below `a_max`) the loop never ends,
whatever the random stream (and however few draws are requested). -/
theorem C63_unreachable_fails {n : ℕ} (hn : 0 < n) {χ q a : ℝ} (hq : 0 < q) (ha : 0 < a) (hχ : a ≤ |χ|)
    {stream : ℕ → Fin n → URow} (hs : ∀ k i, (stream k i).ok) (k : ℕ) : ¬ loopEnds χ q a stream k := by
  intro hend
  have he := hend ⟨0, hn⟩
  have hr : RowOk a (rounds χ q a stream k ⟨0, hn⟩) := rounds_ok ha.le hs k _
  set r := rounds χ q a stream k ⟨0, hn⟩
  have hab : |r.a2 * r.cost2| < a := by
    rw [abs_mul, abs_of_nonneg hr.a2.1]
    have := abs_le.2 ⟨hr.c2.1, hr.c2.2⟩
    calc r.a2 * |r.cost2| ≤ r.a2 * 1 := mul_le_mul_of_nonneg_left this hr.a2.1
      _ < a := by linarith [hr.a2.2.1 ha]
  obtain ⟨b1, b2⟩ := abs_lt.1 hab
  have hqa : 0 < q * a := by positivity
  rcases le_abs.1 hχ with h | h
  · have hnum : a < χ * (1 + q) - q * r.a2 * r.cost2 := by nlinarith
    apply he
    right
    rcases hr.a1.1.eq_or_lt with h0 | h0
    · rw [cost1, ← h0, F.div_fin_zero, F.infOfSign_pos (by linarith)]; trivial
    · rw [cost1, F.div_fin h0.ne', F.gt_fin, lt_div_iff₀ h0]; linarith [hr.a1.2]
  · have hnum : χ * (1 + q) - q * r.a2 * r.cost2 < -a := by nlinarith
    apply he
    left
    rcases hr.a1.1.eq_or_lt with h0 | h0
    · rw [cost1, ← h0, F.div_fin_zero, F.infOfSign_neg (by linarith)]; trivial
    · rw [cost1, F.div_fin h0.ne', F.lt_fin, div_lt_iff₀ h0]; linarith [hr.a1.2]

/-- **C63 is false of the code.** A first uniform equal to `0` together with a zero secondary spin at `χ_eff = 0` gives the
accepted cosine NaN: neither loop test catches it. -/
theorem C63_nan_fails {n : ℕ} {q a : ℝ} {stream : ℕ → Fin n → URow}
    (hz : ∀ i, (stream 0 i).u1 = 0 ∧ (stream 0 i).u2 = 0) :
    loopEnds 0 q a stream 0 ∧ ∀ i, cost1 0 q (rounds 0 q a stream 0 i) = F.nan := by
  have h : ∀ i, cost1 0 q (rounds 0 q a stream 0 i) = F.nan := by
    intro i
    simp only [rounds, cost1, mkRow, (hz i).1, (hz i).2]
    rw [zero_mul a, F.div_fin_zero, show (0 : ℝ) * (1 + q) - q * 0 * (2 * (stream 0 i).u3 - 1) = 0 by ring, F.infOfSign_zero]
  exact ⟨fun i => by rw [h i, unphysical, F.gt, F.lt_nan_left, F.lt_nan_right]; simp, h⟩

/-! ### the reachable interval -/

set_option maxHeartbeats 800000 in
/-- **C63.** With the default maximal spin `1`, every physical configuration with the requested effective spin has
`0 ≤ χ_p ≤ max_chi_p`, and `max_chi_p` is attained: the support of the returned density is exactly the reachable interval. -/
theorem C63_support {χ q : ℝ} (hq : 0 < q) (hq1 : q ≤ 1) (hχ : |χ| ≤ 1) :
    ∃ m : ℝ, maxChiP χ q 1 = some m ∧ 0 ≤ m ∧ m ≤ 1 ∧
      (∀ a1 a2 c1 c2 : ℝ, Physical 1 q a1 a2 c1 c2 → chieff q a1 a2 c1 c2 = χ →
        0 ≤ chip q a1 a2 c1 c2 ∧ chip q a1 a2 c1 c2 ≤ m) ∧
      (∃ a1 a2 c1 c2 : ℝ, Physical 1 q a1 a2 c1 c2 ∧ chieff q a1 a2 c1 c2 = χ ∧ chip q a1 a2 c1 c2 = m) := by
  have h1 : 0 < 1 + q := by linarith
  unfold maxChiP
  by_cases hc : (1 + q) * |χ| / q < 1
  · rw [if_pos hc]
    rw [div_lt_one hq] at hc
    refine ⟨1, rfl, zero_le_one, le_rfl, ?_, ?_⟩
    · intro a1 a2 c1 c2 h _
      exact C58_chip_range h
    · refine ⟨1, 1, 0, (1 + q) * χ / q, ⟨⟨hq, hq1⟩, by norm_num, by norm_num, by norm_num, abs_le.1 ?_⟩, ?_, ?_⟩
      · rw [abs_div, abs_mul, abs_of_pos h1, abs_of_pos hq, div_le_one hq]; linarith
      · unfold chieff; field_simp; ring
      · have hs : √(1 - ((1 + q) * χ / q) ^ 2) ≤ 1 := Real.sqrt_le_one.2 (by nlinarith [sq_nonneg ((1 + q) * χ / q)])
        have hs0 := Real.sqrt_nonneg (1 - ((1 + q) * χ / q) ^ 2)
        have hk : (3 + 4 * q) / (4 + 3 * q) * q ≤ 1 := by
          rw [div_mul_eq_mul_div, div_le_one (by linarith)]; nlinarith
        have hk0 : 0 ≤ (3 + 4 * q) / (4 + 3 * q) * q := by positivity
        unfold chip
        simp only [ne_eq, OfNat.ofNat_ne_zero, not_false_eq_true, zero_pow, sub_zero, Real.sqrt_one, mul_one]
        rw [max_eq_left]
        nlinarith
  · rw [if_neg hc]
    rw [div_lt_one hq, not_lt] at hc
    set t := (1 + q) * |χ| - q with ht
    have ht0 : 0 ≤ t := by linarith
    have ht1 : t ≤ 1 := by nlinarith
    have hr : ¬ ((1 : ℝ) ^ 2 - t ^ 2 < 0) := by nlinarith
    simp only []
    rw [if_neg hr, one_pow]
    have hm0 := Real.sqrt_nonneg (1 - t ^ 2)
    have hm1 : √(1 - t ^ 2) ≤ 1 := Real.sqrt_le_one.2 (by nlinarith)
    refine ⟨_, rfl, hm0, hm1, ?_, ?_⟩
    · rintro a1 a2 c1 c2 ⟨-, ⟨p1, p2⟩, ⟨p3, p4⟩, p5, p6⟩ he
      replace p5 := abs_le.2 p5
      replace p6 := abs_le.2 p6
      have he' : a1 * c1 + q * (a2 * c2) = (1 + q) * χ := by
        unfold chieff at he; field_simp at he; linarith
      have hx1 : |a1 * c1| ≤ a1 := by rw [abs_mul, abs_of_nonneg p1]; nlinarith
      have hx2 : |a2 * c2| ≤ a2 := by rw [abs_mul, abs_of_nonneg p3]; nlinarith
      have hsum : (1 + q) * |χ| ≤ |a1 * c1| + q * |a2 * c2| := by
        have : (1 + q) * |χ| = |a1 * c1 + q * (a2 * c2)| := by rw [he', abs_mul, abs_of_pos h1]
        rw [this]
        calc _ ≤ |a1 * c1| + |q * (a2 * c2)| := abs_add_le _ _
          _ = _ := by rw [abs_mul q, abs_of_pos hq]
      -- primary
      have q1 : t ≤ |a1 * c1| := by nlinarith
      have s1 : a1 * √(1 - c1 ^ 2) ≤ √(1 - t ^ 2) := by
        have e : a1 * √(1 - c1 ^ 2) = √(a1 ^ 2 * (1 - c1 ^ 2)) := by rw [Real.sqrt_mul (sq_nonneg a1), Real.sqrt_sq p1]
        rw [e]
        apply Real.sqrt_le_sqrt
        have : t ^ 2 ≤ (a1 * c1) ^ 2 := by rw [← sq_abs (a1 * c1)]; nlinarith
        nlinarith
      -- secondary
      have s2 : (3 + 4 * q) / (4 + 3 * q) * q * a2 * √(1 - c2 ^ 2) ≤ √(1 - t ^ 2) := by
        have hk : (3 + 4 * q) / (4 + 3 * q) ≤ 1 := by rw [div_le_one (by linarith)]; linarith
        have hk0 : 0 ≤ (3 + 4 * q) / (4 + 3 * q) := by positivity
        have e : q * a2 * √(1 - c2 ^ 2) = √(q ^ 2 * (a2 ^ 2 * (1 - c2 ^ 2))) := by
          rw [Real.sqrt_mul (sq_nonneg q), Real.sqrt_sq hq.le, Real.sqrt_mul (sq_nonneg a2), Real.sqrt_sq p3]; ring
        have hle : q * a2 * √(1 - c2 ^ 2) ≤ √(1 - t ^ 2) := by
          rw [e]
          apply Real.sqrt_le_sqrt
          have hy : q - (1 - t) ≤ q * |a2 * c2| := by nlinarith
          have ha2 : a2 ^ 2 ≤ 1 := by nlinarith
          have hqq : q ^ 2 * a2 ^ 2 ≤ q ^ 2 := by nlinarith [sq_nonneg q]
          have hexp : q ^ 2 * (a2 ^ 2 * (1 - c2 ^ 2)) = q ^ 2 * a2 ^ 2 - (q * |a2 * c2|) ^ 2 := by
            rw [mul_pow q, sq_abs]; ring
          rw [hexp]
          rcases le_total q (1 - t) with hw | hw
          · nlinarith [sq_nonneg (q * |a2 * c2|)]
          · have : (q - (1 - t)) ^ 2 ≤ (q * |a2 * c2|) ^ 2 := pow_le_pow_left₀ (by linarith) hy 2
            nlinarith
        have hn : 0 ≤ q * a2 * √(1 - c2 ^ 2) := by positivity
        calc _ = (3 + 4 * q) / (4 + 3 * q) * (q * a2 * √(1 - c2 ^ 2)) := by ring
          _ ≤ 1 * (q * a2 * √(1 - c2 ^ 2)) := mul_le_mul_of_nonneg_right hk hn
          _ ≤ _ := by linarith
      exact ⟨le_max_of_le_left (by positivity), max_le s1 s2⟩
    · obtain ⟨sg, hsg, hχs⟩ : ∃ sg : ℝ, sg ^ 2 = 1 ∧ χ = sg * |χ| := by
        rcases le_total 0 χ with h | h
        · exact ⟨1, by norm_num, by rw [abs_of_nonneg h]; ring⟩
        · exact ⟨-1, by norm_num, by rw [abs_of_nonpos h]; ring⟩
      have hsa : |sg| = 1 := by
        have : |sg| ^ 2 = 1 := by rw [sq_abs]; exact hsg
        nlinarith [abs_nonneg sg]
      refine ⟨1, 1, sg * t, sg, ⟨⟨hq, hq1⟩, by norm_num, by norm_num, abs_le.1 ?_, abs_le.1 hsa.le⟩, ?_, ?_⟩
      · rw [abs_mul, hsa, abs_of_nonneg ht0]; linarith
      · unfold chieff
        rw [div_eq_iff h1.ne', ht]
        conv_rhs => rw [hχs]
        generalize |χ| = y
        ring
      · unfold chip
        simp only [mul_pow, hsg, sub_self, Real.sqrt_zero, one_mul, mul_zero]
        exact max_eq_left hm0

/-- **C63 is false of the code for other maximal spins.** For every `a_max < 1` the value used for the upper end of the
support is wrong (`q` instead of `q·a_max`): at `χ_eff = q a/(1+q)` a physical configuration reaches `χ_p = a`, but the
returned density's support ends strictly below `a` (or its end point is NaN). -/
theorem C63_amax_fails {q a : ℝ} (hq : 0 < q) (hq1 : q ≤ 1) (ha : 0 < a) (ha1 : a < 1) :
    (∃ a1 a2 c1 c2 : ℝ, Physical a q a1 a2 c1 c2 ∧ chieff q a1 a2 c1 c2 = q * a / (1 + q) ∧ chip q a1 a2 c1 c2 = a) ∧
    (∀ m, maxChiP (q * a / (1 + q)) q a = some m → m < a) := by
  have h1 : 0 < 1 + q := by linarith
  constructor
  · refine ⟨a, a, 0, 1, ⟨⟨hq, hq1⟩, ⟨ha.le, le_rfl⟩, ⟨ha.le, le_rfl⟩, by norm_num, by norm_num⟩, ?_, ?_⟩
    · unfold chieff; ring
    · unfold chip; simp [ha.le]
  · intro m hm
    have habs : |q * a / (1 + q)| = q * a / (1 + q) := abs_of_pos (by positivity)
    have e : (1 + q) * (q * a / (1 + q)) = q * a := by field_simp
    unfold maxChiP at hm
    rw [habs, e] at hm
    rw [if_neg (by rw [mul_div_assoc, mul_comm, div_mul_cancel₀ _ hq.ne']; exact lt_irrefl _)] at hm
    simp only [] at hm
    split_ifs at hm with hr
    obtain rfl := Option.some.inj hm
    rw [Real.sqrt_lt' ha]
    have : 0 < (q * a - q) ^ 2 := by
      have : q * a - q < 0 := by nlinarith
      nlinarith
    linarith

/-- **C63 is false of the code.** For a small maximal spin the end of the support is NaN although the requested effective
spin is reachable. -/
theorem C63_amax_nan_fails {q a : ℝ} (hq : 0 < q) (ha : 0 < a) (h : a < q * (1 - a)) :
    maxChiP (q * a / (1 + q)) q a = none := by
  have h1 : 0 < 1 + q := by linarith
  have habs : |q * a / (1 + q)| = q * a / (1 + q) := abs_of_pos (by positivity)
  have e : (1 + q) * (q * a / (1 + q)) = q * a := by field_simp
  unfold maxChiP
  rw [habs, e, if_neg (by rw [mul_div_assoc, mul_comm, div_mul_cancel₀ _ hq.ne']; exact lt_irrefl _)]
  simp only []
  rw [if_pos]
  nlinarith

/-! ### the interpolated density -/

theorem refGrid_inc {m : ℝ} (hm : 0 < m) : IncOn 52 (refGrid m) := by
  intro i hi
  have hlt : 0.05 * m < 0.95 * m := by norm_num; linarith
  have hsm := linspace_strictMono hlt (n := 50) (by norm_num)
  unfold refGrid
  by_cases h0 : i = 0
  · subst h0
    rw [if_pos rfl, if_neg (by norm_num), if_neg (by norm_num), show 0 + 1 - 1 = 0 from rfl, linspace_zero]
    positivity
  · by_cases h51 : i + 1 = 51
    · obtain rfl : i = 50 := by omega
      rw [if_neg h0, if_neg (by norm_num), if_neg (by norm_num), if_pos rfl, linspace_last _ _ (by norm_num)]
      norm_num; linarith
    · rw [if_neg h0, if_neg (by omega), if_neg (by omega), if_neg h51]
      exact hsm (by omega)

/-- **C63.** The returned density is non-negative, zero outside `(0, max_chi_p)` and integrates to exactly one over it, for
every non-negative kernel density estimate that is positive somewhere on the reference grid. -/
theorem C63_density {kde : ℝ → ℝ} {m : ℝ} (hm : 0 < m) (hk : ∀ x, 0 ≤ kde x)
    (hpos : ∃ j < 50, 0 < kde ((linspace (0.05 * m) (0.95 * m) 50).get j)) :
    (∀ x, 0 ≤ chipGiven kde m x) ∧ (∀ x, x ≤ 0 ∨ m ≤ x → chipGiven kde m x = 0) ∧
    ∫ x in (0 : ℝ)..m, chipGiven kde m x = 1 := by
  have hinc := refGrid_inc hm
  have h0 : refGrid m 0 = 0 := rfl
  have h51 : refGrid m (52 - 1) = m := by simp [refGrid]
  have hv : ∀ i, 0 ≤ refVals kde m i := fun i => by
    unfold refVals; split_ifs
    · exact le_rfl
    · exact le_rfl
    · exact hk _
  set N := trapz 52 (refVals kde m) (refGrid m) with hN
  have hNpos : 0 < N := by
    obtain ⟨j, hj, hjp⟩ := hpos
    have hjv : 0 < refVals kde m (j + 1) := by
      unfold refVals refGrid
      rw [if_neg (by omega), if_neg (by omega), if_neg (by omega), if_neg (by omega), Nat.add_sub_cancel]
      exact hjp
    rw [hN, trapz]
    refine mul_pos (by norm_num) (Finset.sum_pos' (fun i hi => ?_) ⟨j + 1, by simp; omega, ?_⟩)
    · have := Finset.mem_range.1 hi
      exact mul_nonneg (by linarith [hinc i (by omega)]) (add_nonneg (hv _) (hv _))
    · exact mul_pos (by linarith [hinc (j + 1) (by omega)]) (by linarith [hv (j + 1 + 1)])
  have hdef : ∀ x, chipGiven kde m x = interp 52 (refGrid m) (fun i => refVals kde m i / N) x := fun x => rfl
  refine ⟨fun x => ?_, fun x hx => ?_, ?_⟩
  · rw [hdef]
    exact interp_nonneg (by norm_num) hinc (fun i _ => div_nonneg (hv i) hNpos.le) x
  · rw [hdef]
    rcases hx with hx | hx
    · rcases hx.lt_or_eq with hx | hx
      · rw [interp_below (by rw [h0]; exact hx)]; simp [refVals]
      · have h := interp_node (fp := fun i => refVals kde m i / N) (by norm_num) hinc (i := 0) (by norm_num)
        rw [h0] at h
        rw [hx, h]; simp [refVals]
    · rcases hx.lt_or_eq with hx | hx
      · rw [interp_above hinc (by norm_num) (by rw [h51]; exact hx)]; simp [refVals]
      · have h := interp_node (fp := fun i => refVals kde m i / N) (by norm_num) hinc (i := 52 - 1) (by norm_num)
        rw [h51] at h
        rw [← hx, h]; simp [refVals]
  · have h := interp_integral (fp := fun i => refVals kde m i / N) hinc
    rw [h0, h51] at h
    simp only [hdef]
    rw [h, show trapz 52 (fun i => refVals kde m i / N) (refGrid m) = N / N from ?_, div_self hNpos.ne']
    have : ∀ M : ℝ, trapz 52 (fun i => refVals kde m i / M) (refGrid m) = trapz 52 (refVals kde m) (refGrid m) / M := by
      intro M
      unfold trapz
      rw [mul_div_assoc, Finset.sum_div]
      congr 1
      exact Finset.sum_congr rfl fun i _ => by ring
    exact this N

/-- **C63 is false of the code.** At the extreme effective spin `|χ_eff| = a_max = 1` the reachable interval is the single
point `0` and the density is `0/0`: the normalisation is zero. -/
theorem C63_extreme_fails (kde : ℝ → ℝ) {q : ℝ} (hq : 0 < q) :
    maxChiP 1 q 1 = some 0 ∧ trapz 52 (refVals kde 0) (refGrid 0) = 0 := by
  constructor
  · unfold maxChiP
    rw [abs_one, if_neg (by rw [mul_one, div_lt_one hq]; linarith)]
    simp only []
    rw [if_neg (by ring_nf; norm_num)]
    ring_nf; simp
  · unfold trapz
    rw [Finset.sum_eq_zero, mul_zero]
    intro i _
    have : ∀ j, refGrid 0 j = 0 := fun j => by simp [refGrid, linspace]
    rw [this, this]; ring

example : ∃ j < 50, 0 < (fun _ : ℝ => (1 : ℝ)) ((linspace (0.05 * 0.8) (0.95 * 0.8) 50).get j) := ⟨0, by norm_num, by norm_num⟩
example : ∃ (stream : ℕ → Fin 3 → URow), (∀ k i, (stream k i).ok) ∧ loopEnds 0.2 0.5 1 stream 0 ∧
    ∀ i, (rounds 0.2 0.5 1 stream 0 i).a1 ≠ 0 := by
  refine ⟨fun _ _ => ⟨0.5, 0, 0.5⟩, fun _ _ => ⟨by norm_num, by norm_num, by norm_num, by norm_num, by norm_num, by norm_num⟩,
    fun i => ?_, fun i => by simp only [rounds, mkRow]; norm_num⟩
  simp only [rounds, mkRow, cost1, unphysical]
  rw [F.div_fin (by norm_num), F.lt_fin, F.gt_fin]
  norm_num

end GW
end
