import Verif.Lemmas.SplineInit

/-!
# Properties C01–C04, C08, C16: the spline basis

The spline objects are those returned by the constructor model `Spline.init`.
-/

open Finset
noncomputable section
open Classical
namespace GW

/-! ## C16 — the constructor -/

/-- **C16.** With default knots the constructor succeeds for every `n_df ≥ k ≥ 1`; it stores `n_df + k` knots,
consecutive knots differ by `(b-a)/(n_df-k+1)`, knot `k-1` is the left end of the domain and knot `n_df` the
right end. -/
theorem C16_default_knots (nDf k : ℕ) (a b : ℝ) (hk : 1 ≤ k) (hn : k ≤ nDf) :
    ∃ s : Spline, Spline.init nDf none none a b k = .ok s ∧
      s.N = nDf ∧ s.order = k ∧ s.lo = a ∧ s.hi = b ∧ s.knots.len = nDf + k ∧
      s.knots.get (k - 1) = a ∧ s.knots.get nDf = b ∧
      ∀ i, i + 1 < s.knots.len → s.knots.get (i + 1) - s.knots.get i = (b - a) / ((nDf : ℝ) - k + 1) := by
  obtain ⟨s, hs, h1, h2, h3, h4, h5, -⟩ := init_default (lo := a) (hi := b) hk hn
  exact ⟨s, hs, h2, h1, h3, h4, h5, init_default_first hk hn hs, init_default_last hk hn hs,
    fun i _ => init_default_gap hk hn hs i⟩

/-- **C16.** With default knots and `n_df < k` the constructor always raises. -/
theorem C16_default_too_few (nDf k : ℕ) (a b : ℝ) (hn : nDf < k) :
    ∃ e, Spline.init nDf none none a b k = .error e := by
  unfold Spline.init
  by_cases h : nDf + 2 < k
  · exact ⟨InitErr.index, by simp [h]; rfl⟩
  · refine ⟨InitErr.index, ?_⟩
    have h2 : (linspace a b (nDf + 2 - k)).len < 2 := by change nDf + 2 - k < 2; omega
    simp only [h, if_false, pure_bind, h2, if_true]
    rfl

/-- **C16.** With explicit knots the constructor succeeds exactly when `len(knots) = n_df + k`, and then stores
those knots unchanged. -/
theorem C16_explicit_knots (nDf k : ℕ) (a b : ℝ) (kn : Arr ℝ) (ik : Option (Arr ℝ)) :
    ((∃ s, Spline.init nDf (some kn) ik a b k = .ok s) ↔ kn.len = nDf + k) ∧
    ∀ s, Spline.init nDf (some kn) ik a b k = .ok s → s.knots = kn ∧ s.N = nDf ∧ s.order = k ∧ s.lo = a ∧ s.hi = b := by
  unfold Spline.init
  by_cases h : kn.len = nDf + k
  · simp only [pure_bind, h, if_true]
    refine ⟨⟨fun _ => trivial, fun _ => ⟨_, rfl⟩⟩, ?_⟩
    intro s hs
    cases hs
    exact ⟨rfl, rfl, rfl, rfl, rfl⟩
  · simp only [pure_bind, h, if_false]
    refine ⟨⟨?_, fun hh => hh.elim⟩, ?_⟩
    · rintro ⟨s, hs⟩; cases hs
    · intro s hs; cases hs

example : ∃ s : Spline, Spline.init 10 none none 0 1 4 = .ok s ∧ s.knots.len = 14 :=
  let ⟨s, h, _, _, _, _, h5, _⟩ := C16_default_knots 10 4 0 1 (by norm_num) (by norm_num)
  ⟨s, h, h5⟩

/-! ## C01 — partition of unity -/

/-- **C01.** Default knots: at every `x` of the closed domain `[a,b]` the B-spline basis values sum to 1. -/
theorem C01_partition_of_unity (nDf k : ℕ) (a b : ℝ) (hk : 2 ≤ k) (hn : k ≤ nDf)
    (hgap : 1 / 1000000 ≤ (b - a) / ((nDf : ℝ) - k + 1))
    (s : Spline) (hs : Spline.init nDf none none a b k = .ok s) (x : ℝ) (hx : a ≤ x ∧ x ≤ b) :
    ∑ i ∈ range nDf, s.bBases i x = 1 := by
  have hden := default_den_pos hn
  have hlt : a < b := by
    have : 0 < (b - a) / ((nDf : ℝ) - k + 1) := lt_of_lt_of_le (by norm_num) hgap
    have := (div_pos_iff_of_pos_right hden).1 this
    linarith
  obtain ⟨ho, hN, hlo, hhi, -, -⟩ := init_default_eq (by omega) hn hs
  have hmono := init_default_mono (by omega) hn hlt hs
  have hfirst := init_default_first (by omega) hn hs
  have hlast := init_default_last (by omega) hn hs
  have hout : ¬ s.outside x := by
    unfold Spline.outside; rw [hlo, hhi]; push Not; exact hx
  obtain ⟨k, rfl⟩ : ∃ k', k = k' + 2 := ⟨k - 2, by omega⟩
  obtain ⟨n, rfl⟩ : ∃ n, nDf = n + (k + 1) := ⟨nDf - (k + 1), by omega⟩
  have hg : ∀ i, s.knots.get (i + 1) = s.knots.get i ∨ knotEps ≤ s.knots.get (i + 1) - s.knots.get i := by
    intro i; right; rw [init_default_gap (by omega) hn hs]; exact hgap
  have := partition_of_unity_closed (x := x) hmono.monotone hg k n (hmono (by omega))
    (by rw [show k + 1 = k + 2 - 1 by omega, hfirst]; exact hx.1)
    (by rw [show k + 1 + n = n + (k + 1) by ring, hlast]; exact hx.2)
  rw [← this]
  refine sum_congr rfl fun i _ => ?_
  rw [Spline.bBases, if_neg hout, Spline.bBase_eq, ho]

example : ∃ s, Spline.init 7 none none 2 100 4 = .ok s ∧ ∑ i ∈ range 7, s.bBases i 100 = 1 := by
  obtain ⟨s, hs, _⟩ := C16_default_knots 7 4 2 100 (by norm_num) (by norm_num)
  exact ⟨s, hs, C01_partition_of_unity 7 4 2 100 (by norm_num) (by norm_num) (by norm_num) s hs 100 (by norm_num)⟩

/-- **C01**, explicit knots: for any knot array of the right length whose gaps are zero or at least `1e-6`, with
the domain ends at knots `k-1` and `n_df` and one knot strictly to the right of the domain, the basis values sum
to 1 on the closed domain. -/
theorem C01_partition_of_unity_explicit (nDf k : ℕ) (kn : Arr ℝ) (hk : 2 ≤ k) (hn : k ≤ nDf)
    (hmono : ∀ i j, i ≤ j → j < kn.len → kn.get i ≤ kn.get j)
    (hgap : ∀ i, i + 1 < kn.len → kn.get (i + 1) = kn.get i ∨ 1 / 1000000 ≤ kn.get (i + 1) - kn.get i)
    (hright : kn.get nDf < kn.get (nDf + 1))
    (s : Spline) (hs : Spline.init nDf (some kn) none (kn.get (k - 1)) (kn.get nDf) k = .ok s)
    (x : ℝ) (hx : kn.get (k - 1) ≤ x ∧ x ≤ kn.get nDf) :
    ∑ i ∈ range nDf, s.bBases i x = 1 := by
  obtain ⟨h1, h2⟩ := C16_explicit_knots nDf k (kn.get (k - 1)) (kn.get nDf) kn none
  have hlen := h1.1 ⟨s, hs⟩
  obtain ⟨hkn, -, ho, hlo, hhi⟩ := h2 s hs
  have hout : ¬ s.outside x := by
    unfold Spline.outside; rw [hlo, hhi]; push Not; exact hx
  obtain ⟨k, rfl⟩ : ∃ k', k = k' + 2 := ⟨k - 2, by omega⟩
  obtain ⟨n, rfl⟩ : ∃ n, nDf = n + (k + 1) := ⟨nDf - (k + 1), by omega⟩
  have hm := clampIdx_mono hmono (by omega)
  have hg : ∀ i, clampIdx kn.len kn.get (i + 1) = clampIdx kn.len kn.get i ∨
      knotEps ≤ clampIdx kn.len kn.get (i + 1) - clampIdx kn.len kn.get i := by
    intro i
    by_cases hi : i + 1 < kn.len
    · rw [clampIdx_eq hi, clampIdx_eq (by omega)]; exact hgap i hi
    · left; unfold clampIdx; congr 1; omega
  have := partition_of_unity_closed (x := x) hm hg k n
    (by rw [clampIdx_eq (by omega), clampIdx_eq (by omega), show k + 1 + n = n + (k + 1) by ring]; exact hright)
    (by rw [clampIdx_eq (by omega)]; exact hx.1)
    (by rw [clampIdx_eq (by omega), show k + 1 + n = n + (k + 1) by ring]; exact hx.2)
  rw [← this]
  refine sum_congr rfl fun i hi => ?_
  have hi := mem_range.1 hi
  rw [Spline.bBases, if_neg hout, Spline.bBase, hkn, ho, bsp, basis_clamp (n := kn.len) (by omega),
    clampIdx_eq (by omega), clampIdx_eq (by omega)]

example : ∃ (kn : Arr ℝ) (s : Spline), kn.get 1 = 0 ∧ Spline.init 3 (some kn) none (kn.get (2 - 1)) (kn.get 3) 2 = .ok s ∧
    ∑ i ∈ range 3, s.bBases i 5 = 1 := by
  let kn : Arr ℝ := ⟨5, fun i => (i : ℝ) * i - 1⟩
  have hmono : ∀ i j : ℕ, i ≤ j → j < kn.len → kn.get i ≤ kn.get j := by
    intro i j hij _
    have : (i : ℝ) ≤ j := by exact_mod_cast hij
    have h0 : (0 : ℝ) ≤ i := by positivity
    simp only [kn]; nlinarith
  have hs := ((C16_explicit_knots 3 2 (kn.get (2 - 1)) (kn.get 3) kn none).1).2 rfl
  obtain ⟨s, hs⟩ := hs
  refine ⟨kn, s, by norm_num [kn], hs, C01_partition_of_unity_explicit 3 2 kn (by norm_num) (by norm_num) hmono ?_ ?_ s hs 5 ?_⟩
  · intro i _; right; simp only [kn]; push_cast
    have h0 : (0 : ℝ) ≤ i := by positivity
    nlinarith
  · norm_num [kn]
  · norm_num [kn]

/-- **C01**, boundary of validity: with clamped explicit knots (the last `k` knots equal to the right end, the
textbook choice) every basis value at the right end is 0, so the sum there is 0, not 1. -/
theorem C01_clamped_right_end_fails (nDf k : ℕ) (kn : Arr ℝ) (hk : 1 ≤ k) (hn : 1 ≤ nDf)
    (hmono : ∀ i j, i ≤ j → j < kn.len → kn.get i ≤ kn.get j)
    (hclamp : ∀ i, nDf ≤ i → i < kn.len → kn.get i = kn.get nDf)
    (s : Spline) (hs : Spline.init nDf (some kn) none (kn.get 0) (kn.get nDf) k = .ok s) :
    ∑ i ∈ range nDf, s.bBases i (kn.get nDf) = 0 := by
  obtain ⟨h1, h2⟩ := C16_explicit_knots nDf k (kn.get 0) (kn.get nDf) kn none
  have hlen := h1.1 ⟨s, hs⟩
  obtain ⟨hkn, -, ho, hlo, hhi⟩ := h2 s hs
  have hm := clampIdx_mono hmono (by omega)
  refine sum_eq_zero fun i hi => ?_
  have hi := mem_range.1 hi
  rw [Spline.bBases]
  split_ifs
  · rfl
  · rw [Spline.bBase, hkn, ho, basis_clamp (n := kn.len) (by omega), basis_eq_zero_of_ge hm, mul_zero]
    rw [clampIdx_eq (by omega)]
    exact (hmono (i + k) (kn.len - 1) (by omega) (by omega)).trans
      (by rw [hclamp _ (by omega) (by omega)])

example : ∃ (kn : Arr ℝ) (s : Spline), Spline.init 3 (some kn) none (kn.get 0) (kn.get 3) 2 = .ok s ∧
    kn.get 0 < kn.get 3 ∧ ∑ i ∈ range 3, s.bBases i (kn.get 3) = 0 := by
  let kn : Arr ℝ := ⟨5, fun i => ((min i 3 : ℕ) : ℝ)⟩
  obtain ⟨s, hs⟩ := ((C16_explicit_knots 3 2 (kn.get 0) (kn.get 3) kn none).1).2 rfl
  refine ⟨kn, s, hs, by norm_num [kn], C01_clamped_right_end_fails 3 2 kn (by norm_num) (by norm_num) ?_ ?_ s hs⟩
  · intro i j hij _
    simp only [kn]; exact_mod_cast min_le_min_right 3 hij
  · intro i hi _; simp only [kn]; rw [min_eq_right (by omega)]; norm_num

/-- **C01**, boundary of validity: order 1 (piecewise constant) splines vanish at the right end of the domain. -/
theorem C01_order_one_right_end_fails (nDf : ℕ) (a b : ℝ) (hn : 1 ≤ nDf) (hab : a < b)
    (s : Spline) (hs : Spline.init nDf none none a b 1 = .ok s) : ∑ i ∈ range nDf, s.bBases i b = 0 := by
  obtain ⟨ho, hN, hlo, hhi, -, -⟩ := init_default_eq (by omega) hn hs
  have hmono := (init_default_mono (by omega) hn hab hs).monotone
  have hlast := init_default_last (by omega) hn hs
  refine sum_eq_zero fun i hi => ?_
  have hi := mem_range.1 hi
  rw [Spline.bBases]
  split_ifs
  · rfl
  · rw [Spline.bBase, ho, basis_eq_zero_of_ge hmono, mul_zero]
    rw [← hlast]; exact hmono (by omega)

/-- **C01**, boundary of validity: when the knot spacing is so small that `k` cells span less than `1e-6`
every basis value is 0 everywhere (a domain in tiny units gives an identically zero basis). -/
theorem C01_tiny_domain_fails (nDf k : ℕ) (a b : ℝ) (hk : 1 ≤ k) (hn : k ≤ nDf)
    (hgap : k * ((b - a) / ((nDf : ℝ) - k + 1)) < 1 / 1000000)
    (s : Spline) (hs : Spline.init nDf none none a b k = .ok s) (x : ℝ) :
    ∑ i ∈ range nDf, s.bBases i x = 0 := by
  obtain ⟨ho, hN, hlo, hhi, -, hget⟩ := init_default_eq (by omega) hn hs
  refine sum_eq_zero fun i hi => ?_
  rw [Spline.bBases]
  split_ifs
  · rfl
  · rw [Spline.bBase, ho, basis_eq_zero_of_degenerate, mul_zero]
    rw [hget, hget]; push_cast
    calc _ = k * ((b - a) / ((nDf : ℝ) - k + 1)) := by ring
      _ < _ := hgap

example : ∃ s, Spline.init 5 none none 0 (1 / 100000000) 4 = .ok s ∧
    ∑ i ∈ range 5, s.bBases i (1 / 200000000) = 0 := by
  obtain ⟨s, hs, _⟩ := C16_default_knots 5 4 0 (1 / 100000000) (by norm_num) (by norm_num)
  exact ⟨s, hs, C01_tiny_domain_fails 5 4 0 _ (by norm_num) (by norm_num) (by norm_num) s hs _⟩

/-! ## C02 — non-negativity -/

/-- **C02.** For every non-decreasing knot array (coincident knots allowed) every M-spline and B-spline basis
value is non-negative, at every real `x`. -/
theorem C02_nonneg (s : Spline) (hlen : s.knots.len = s.N + s.order)
    (hmono : ∀ i j, i ≤ j → j < s.knots.len → s.knots.get i ≤ s.knots.get j)
    (i : ℕ) (hi : i < s.N) (x : ℝ) : 0 ≤ s.mBases i x ∧ 0 ≤ s.bBases i x := by
  have hm := clampIdx_mono hmono (by omega)
  have hb : 0 ≤ basis s.knots.get x s.order i := by
    rw [basis_clamp (n := s.knots.len) (by omega)]; exact basis_nonneg hm _ _
  constructor
  · rw [Spline.mBases]; split_ifs
    · exact le_refl _
    · exact hb
  · rw [Spline.bBases]; split_ifs
    · exact le_refl _
    · have : s.knots.get i ≤ s.knots.get (i + s.order) := hmono _ _ (by omega) (by omega)
      exact mul_nonneg (div_nonneg (by linarith) (by positivity)) hb

example : ∃ s : Spline, s.knots.len = s.N + s.order ∧
    (∀ i j, i ≤ j → j < s.knots.len → s.knots.get i ≤ s.knots.get j) ∧ s.bBases 1 (1/2) = 1/2 := by
  refine ⟨⟨2, 3, 0, 2, ⟨5, fun i => ((i - 1 : ℕ) : ℝ)⟩⟩, rfl, ?_, ?_⟩
  · intro i j hij _; simp only; exact_mod_cast Nat.sub_le_sub_right hij 1
  · norm_num [Spline.bBases, Spline.outside, Spline.bBase, basis, knotEps]

/-! ## C03 — local support -/

/-- **C03.** Every component vanishes outside `[t_i, t_{i+k})` and outside the domain. -/
theorem C03_local_support (s : Spline) (hlen : s.knots.len = s.N + s.order)
    (hmono : ∀ i j, i ≤ j → j < s.knots.len → s.knots.get i ≤ s.knots.get j)
    (i : ℕ) (hi : i < s.N) (x : ℝ)
    (hx : x < s.knots.get i ∨ s.knots.get (i + s.order) ≤ x ∨ x < s.lo ∨ s.hi < x) :
    s.mBases i x = 0 ∧ s.bBases i x = 0 := by
  have hm := clampIdx_mono hmono (by omega)
  by_cases ho : s.outside x
  · rw [Spline.mBases, Spline.bBases, if_pos ho, if_pos ho]; exact ⟨rfl, rfl⟩
  have hb : basis s.knots.get x s.order i = 0 := by
    rw [basis_clamp (n := s.knots.len) (by omega)]
    rcases hx with h | h | h | h
    · exact basis_eq_zero_of_lt hm _ _ (by rw [clampIdx_eq (by omega)]; exact h)
    · exact basis_eq_zero_of_ge hm _ _ (by rw [clampIdx_eq (by omega)]; exact h)
    · exact absurd (Or.inl h) ho
    · exact absurd (Or.inr h) ho
  rw [Spline.mBases, Spline.bBases, if_neg ho, if_neg ho, Spline.mBase, Spline.bBase, hb]
  simp

/-- **C03.** At any `x` at most `k` components are non-zero. -/
theorem C03_at_most_k_nonzero (s : Spline) (hlen : s.knots.len = s.N + s.order)
    (hmono : ∀ i j, i ≤ j → j < s.knots.len → s.knots.get i ≤ s.knots.get j) (x : ℝ) :
    ((range s.N).filter (fun i => s.bBases i x ≠ 0)).card ≤ s.order ∧
    ((range s.N).filter (fun i => s.mBases i x ≠ 0)).card ≤ s.order := by
  have key : ∀ S : Finset ℕ, (∀ i ∈ S, i < s.N ∧ s.knots.get i ≤ x ∧ x < s.knots.get (i + s.order)) →
      S.card ≤ s.order := by
    intro S hS
    rcases S.eq_empty_or_nonempty with h | h
    · simp [h]
    · have hsub : S ⊆ Finset.Ico (S.min' h) (S.min' h + s.order) := by
        intro j hj
        rw [Finset.mem_Ico]
        refine ⟨S.min'_le j hj, ?_⟩
        by_contra hc
        rw [not_lt] at hc
        obtain ⟨h1, h2, h3⟩ := hS _ (S.min'_mem h)
        obtain ⟨g1, g2, g3⟩ := hS _ hj
        have := hmono _ _ hc (by omega)
        linarith
      exact (card_le_card hsub).trans (by simp)
  constructor
  · refine key _ fun i hi => ?_
    rw [mem_filter, mem_range] at hi
    refine ⟨hi.1, ?_, ?_⟩
    · by_contra hc; exact hi.2 (C03_local_support s hlen hmono i hi.1 x (Or.inl (not_le.1 hc))).2
    · by_contra hc; exact hi.2 (C03_local_support s hlen hmono i hi.1 x (Or.inr (Or.inl (not_lt.1 hc)))).2
  · refine key _ fun i hi => ?_
    rw [mem_filter, mem_range] at hi
    refine ⟨hi.1, ?_, ?_⟩
    · by_contra hc; exact hi.2 (C03_local_support s hlen hmono i hi.1 x (Or.inl (not_le.1 hc))).1
    · by_contra hc; exact hi.2 (C03_local_support s hlen hmono i hi.1 x (Or.inr (Or.inl (not_lt.1 hc)))).1

/-- the default constructor meets the hypotheses of C02 and C03 -/
theorem C02_C03_default_hyps (nDf k : ℕ) (a b : ℝ) (hk : 1 ≤ k) (hn : k ≤ nDf) (hab : a < b)
    (s : Spline) (hs : Spline.init nDf none none a b k = .ok s) :
    s.knots.len = s.N + s.order ∧ (∀ i j, i ≤ j → j < s.knots.len → s.knots.get i ≤ s.knots.get j) := by
  obtain ⟨ho, hN, hlo, hhi, hl, -⟩ := init_default_eq hk hn hs
  exact ⟨by rw [hl, hN, ho], fun i j hij _ => (init_default_mono hk hn hab hs).monotone hij⟩

/-! ## C04 — values stay in the range of the coefficients -/

/-- **C04.** Un-normalised evaluation on the domain lies between any lower and upper bound of the coefficients. -/
theorem C04_convex_hull (nDf k : ℕ) (a b : ℝ) (hk : 2 ≤ k) (hn : k ≤ nDf)
    (hgap : 1 / 1000000 ≤ (b - a) / ((nDf : ℝ) - k + 1))
    (s : Spline) (hs : Spline.init nDf none none a b k = .ok s) (c : ℕ → ℝ) (m M : ℝ)
    (hc : ∀ i < nDf, m ≤ c i ∧ c i ≤ M) (x : ℝ) (hx : a ≤ x ∧ x ≤ b) :
    m ≤ s.bEval false c x ∧ s.bEval false c x ≤ M := by
  have hsum := C01_partition_of_unity nDf k a b hk hn hgap s hs x hx
  have hlt : a < b := by
    have : 0 < (b - a) / ((nDf : ℝ) - k + 1) := lt_of_lt_of_le (by norm_num) hgap
    have := (div_pos_iff_of_pos_right (default_den_pos hn)).1 this
    linarith
  obtain ⟨ho, hN, -⟩ := init_default_eq (by omega) hn hs
  obtain ⟨h1, h2⟩ := C02_C03_default_hyps nDf k a b (by omega) hn hlt s hs
  have hnn : ∀ i ∈ range nDf, 0 ≤ s.bBases i x := fun i hi =>
    (C02_nonneg s h1 h2 i (by rw [hN]; exact mem_range.1 hi) x).2
  have hev : s.bEval false c x = ∑ i ∈ range nDf, s.bBases i x * c i := by
    simp [Spline.bEval, bProject, bNorm, einsum, hN]
  rw [hev]
  constructor
  · calc m = ∑ i ∈ range nDf, s.bBases i x * m := by rw [← sum_mul, hsum, one_mul]
      _ ≤ _ := sum_le_sum fun i hi => mul_le_mul_of_nonneg_left (hc i (mem_range.1 hi)).1 (hnn i hi)
  · calc _ ≤ ∑ i ∈ range nDf, s.bBases i x * M :=
        sum_le_sum fun i hi => mul_le_mul_of_nonneg_left (hc i (mem_range.1 hi)).2 (hnn i hi)
      _ = M := by rw [← sum_mul, hsum, one_mul]

/-- **C04.** Constant coefficients give back the constant on the domain. -/
theorem C04_constant (nDf k : ℕ) (a b : ℝ) (hk : 2 ≤ k) (hn : k ≤ nDf)
    (hgap : 1 / 1000000 ≤ (b - a) / ((nDf : ℝ) - k + 1))
    (s : Spline) (hs : Spline.init nDf none none a b k = .ok s) (v : ℝ) (x : ℝ) (hx : a ≤ x ∧ x ≤ b) :
    s.bEval false (fun _ => v) x = v := by
  obtain ⟨h1, h2⟩ := C04_convex_hull nDf k a b hk hn hgap s hs (fun _ => v) v v (fun _ _ => ⟨le_refl _, le_refl _⟩) x hx
  linarith

example : ∃ s, Spline.init 20 none none 0 1 4 = .ok s ∧ s.bEval false (fun _ => 3) (1/3) = 3 := by
  obtain ⟨s, hs, _⟩ := C16_default_knots 20 4 0 1 (by norm_num) (by norm_num)
  exact ⟨s, hs, C04_constant 20 4 0 1 (by norm_num) (by norm_num) (by norm_num) s hs 3 _ (by norm_num)⟩

/-! ## C08 — user-supplied interior knots -/

/-- The property as a user reads it: every supplied interior knot is a knot of the spline. -/
def InteriorKnotsHonoured (ik : Arr ℝ) (s : Spline) : Prop :=
  ∀ j < ik.len, ∃ i < s.knots.len, s.knots.get i = ik.get j

/-- **C08 (part that holds).** Equally spaced interior knots spanning the domain are honoured. -/
theorem C08_uniform_interior_knots_partial (nDf k : ℕ) (a b : ℝ) (hk : 1 ≤ k) (ik : Arr ℝ) (hm : 2 ≤ ik.len)
    (huni : ∀ j, ik.get j = a + j * ((b - a) / ((ik.len : ℝ) - 1)))
    (s : Spline) (hs : Spline.init nDf none (some ik) a b k = .ok s) : InteriorKnotsHonoured ik s := by
  unfold Spline.init at hs
  have h2 : ¬ ik.len < 2 := by omega
  simp only [pure_bind, h2, if_false] at hs
  split_ifs at hs with h
  · cases hs
    intro j hj
    refine ⟨j + (k - 1), ?_, ?_⟩
    · change j + (k - 1) < ik.len + (k - 1) * 2; omega
    · have hd : ik.get 1 - ik.get 0 = (b - a) / ((ik.len : ℝ) - 1) := by
        rw [huni, huni]; push_cast; ring
      simp only [hd]
      rw [extendKnots_get hm hk rfl, huni]
      push_cast [Nat.cast_sub hk]; ring

/-- **C08 fails** in general: there are strictly increasing interior knots spanning the domain, accepted by the
constructor, none of which is a knot of the resulting spline; moreover the resulting basis does not even sum to 1
at the left end of the domain. -/
theorem C08_user_interior_knots_ignored_fails : ∃ (nDf k : ℕ) (a b : ℝ) (ik : Arr ℝ) (s : Spline),
    a < b ∧ ik.len = 3 ∧ (∀ i j, i < j → j < ik.len → ik.get i < ik.get j) ∧ ik.get 0 = a ∧ ik.get 2 = b ∧
    Spline.init nDf none (some ik) a b k = .ok s ∧
    (∀ j < ik.len, ∀ i < s.knots.len, s.knots.get i ≠ ik.get j) ∧
    ∑ i ∈ range nDf, s.bBases i a = 2 / 3 := by
  let ik : Arr ℝ := ⟨3, fun i => if i = 0 then 0 else if i = 1 then 1/4 else 1⟩
  refine ⟨3, 2, 0, 1, ik, ⟨2, 3, 0, 1, extendKnots 0 1 (1/4) 3 2⟩, by norm_num, rfl, ?_, by simp [ik], by simp [ik], ?_, ?_, ?_⟩
  · intro i j hij hj
    have hj : j < 3 := hj
    have : j = 1 ∨ j = 2 := by omega
    rcases this with rfl | rfl
    · have : i = 0 := by omega
      subst this; norm_num [ik]
    · have : i = 0 ∨ i = 1 := by omega
      rcases this with rfl | rfl <;> norm_num [ik]
  · unfold Spline.init
    have : ik.get 1 - ik.get 0 = 1/4 := by norm_num [ik]
    simp only [pure_bind]
    rw [if_neg (by change ¬ (3 < 2); omega), this, if_pos (by rfl)]
    rfl
  · intro j hj i hi
    have hj : j < 3 := hj
    have hi : i < 5 := hi
    have hj' : j = 0 ∨ j = 1 ∨ j = 2 := by omega
    have hi' : i = 0 ∨ i = 1 ∨ i = 2 ∨ i = 3 ∨ i = 4 := by omega
    rcases hj' with rfl | rfl | rfl <;> rcases hi' with rfl | rfl | rfl | rfl | rfl <;>
      norm_num [ik, extendKnots, linspace]
  · norm_num [sum_range_succ, Spline.bBases, Spline.outside, Spline.bBase, basis, extendKnots, linspace, knotEps]

end GW
end
