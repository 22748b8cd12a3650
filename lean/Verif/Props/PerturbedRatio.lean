import Verif.Model.PerturbedRatio
import Verif.Props.SplinePerturbation

/-! # Property C146: the density of `PowerlawBasisSplinePrimaryRatio` -/

open Finset
noncomputable section
open Classical
namespace GW
open F

/-! ### sums with one infinite entry -/

theorem sum_inf {I : F} (hI : I = pinf ∨ I = ninf) {s : Finset ℕ} {g : ℕ → F} (h : ∀ i ∈ s, (∃ r, g i = fin r) ∨ g i = I) (h1 : ∃ i ∈ s, g i = I) : ∑ i ∈ s, g i = I := by
  have add1 : ∀ r, fin r + I = I := by rintro r; rcases hI with rfl | rfl <;> rfl
  have add2 : ∀ r, I + fin r = I := by rintro r; rcases hI with rfl | rfl <;> rfl
  have add3 : I + I = I := by rcases hI with rfl | rfl <;> rfl
  have key : ∀ s : Finset ℕ, (∀ i ∈ s, (∃ r, g i = fin r) ∨ g i = I) → ((∃ r, ∑ i ∈ s, g i = fin r) ∨ ∑ i ∈ s, g i = I) ∧ ((∃ i ∈ s, g i = I) → ∑ i ∈ s, g i = I) := by
    intro s
    induction s using Finset.induction_on with
    | empty => intro _; exact ⟨Or.inl ⟨0, by simp⟩, by simp⟩
    | insert a s ha ih =>
      intro h
      obtain ⟨i1, i2⟩ := ih fun i hi => h i (mem_insert_of_mem hi)
      rw [sum_insert ha]
      rcases h a (mem_insert_self a s) with ⟨r, e⟩ | e
      · rw [e]
        refine ⟨?_, ?_⟩
        · rcases i1 with ⟨r', e'⟩ | e'
          · exact Or.inl ⟨r + r', by rw [e', add_fin]⟩
          · exact Or.inr (by rw [e', add1])
        · rintro ⟨i, hi, ei⟩
          rcases mem_insert.1 hi with rfl | hi
          · rw [e] at ei; rcases hI with rfl | rfl <;> simp at ei
          · rw [i2 ⟨i, hi, ei⟩, add1]
      · rw [e]
        have : I + ∑ i ∈ s, g i = I := by
          rcases i1 with ⟨r', e'⟩ | e'
          · rw [e', add2]
          · rw [e', add3]
        exact ⟨Or.inr this, fun _ => this⟩
  exact (key s h).2 h1

/-- the trapezoidal sum of finite values and one infinite one -/
theorem trapzF_inf {I : F} (hI : I = pinf ∨ I = ninf) {n j : ℕ} (hn : 2 ≤ n) (hj : j < n) {y : ℕ → F} {x : ℕ → ℝ} (hx : ∀ i, i + 1 < n → x i < x (i + 1))
    (hy : ∀ i < n, i ≠ j → ∃ r, y i = fin r) (hyj : y j = I) : trapzF n y (fun i => fin (x i)) = I := by
  have mulI : ∀ r : ℝ, 0 < r → fin r * I = I := by
    intro r hr
    rcases hI with rfl | rfl
    · rw [fin_mul_pinf, infOfSign, if_pos hr]
    · rw [fin_mul_ninf, infOfSign, if_neg (by linarith), if_pos (by linarith)]
  have add1 : ∀ r, fin r + I = I := by rintro r; rcases hI with rfl | rfl <;> rfl
  have add2 : ∀ r, I + fin r = I := by rintro r; rcases hI with rfl | rfl <;> rfl
  unfold trapzF
  rw [sum_inf hI, mulI _ (by norm_num)]
  · intro i hi
    have hi' : i + 1 < n := by have := mem_range.1 hi; omega
    have hd := hx i hi'
    rw [sub_fin]
    by_cases h1 : i = j
    · subst h1
      obtain ⟨r, e⟩ := hy (i + 1) hi' (by omega)
      right; rw [e, hyj, add1, mulI _ (by linarith)]
    · obtain ⟨r, e⟩ := hy i (by omega) h1
      by_cases h2 : i + 1 = j
      · right; rw [e, h2, hyj, add2, ← h2, mulI _ (by linarith)]
      · obtain ⟨r', e'⟩ := hy (i + 1) hi' h2
        left; rw [e, e', add_fin, mul_fin]; exact ⟨_, rfl⟩
  · by_cases h : j + 1 < n
    · obtain ⟨r, e⟩ := hy (j + 1) h (by omega)
      refine ⟨j, mem_range.2 (by omega), ?_⟩
      rw [sub_fin, e, hyj, add1, mulI _ (by linarith [hx j h])]
    · have hj1 : j - 1 + 1 = j := by omega
      obtain ⟨r, e⟩ := hy (j - 1) (by omega) (by omega)
      refine ⟨j - 1, mem_range.2 (by omega), ?_⟩
      have := hx (j - 1) (by omega)
      rw [hj1] at this ⊢
      rw [sub_fin, e, hyj, add2, mulI _ (by linarith)]

/-! ### the factors -/

theorem perturbBy_fin (s : Spline) (c : ℕ → ℝ) (x : ℝ) : perturbBy s c x = fin (Real.exp (einsum s.N (fun i => s.bBases i x) c)) := by
  simp [perturbBy, bProject, bNorm, F.exp]

/-- the power law in mass is finite, positive inside and zero outside -/
theorem powerlaw_mass {a low high : ℝ} (hlow : 0 < low) (hlh : low < high) (x : ℝ) : ∃ v : ℝ, powerlaw_pdf (fin x) (fin a) (fin low) (fin high) = fin v ∧ 0 ≤ v ∧
    (low ≤ x → x ≤ high → 0 < v) ∧ (x < low ∨ high < x → v = 0) := by
  by_cases hx : low ≤ x ∧ x ≤ high
  · have := mul_pos (Real.rpow_pos_of_pos (hlow.trans_le hx.1) a) (plNorm_pos (α := a) hlow hlh)
    exact ⟨_, powerlaw_pdf_in hlow hlh hx.1 hx.2, this.le, fun _ _ => this, fun h => by rcases h with h | h <;> linarith [hx.1, hx.2]⟩
  · have h : x < low ∨ high < x := by rw [not_and_or, not_le, not_le] at hx; exact hx
    refine ⟨0, powerlaw_pdf_out (by rcases h with h | h; exacts [Or.inl h, Or.inr h]), le_rfl, fun h1 h2 => absurd ⟨h1, h2⟩ hx, fun _ => rfl⟩

/-- the power law in mass ratio is finite away from the corner where the primary mass is at its minimum and the ratio is 1 -/
theorem powerlaw_ratio {b low x : ℝ} (hlow : 0 < low) (hx : 0 < x) (q : ℝ) (h : x ≠ low ∨ q ≠ 1) : ∃ v : ℝ, powerlaw_pdf (fin q) (fin b) (fin low / fin x) 1 = fin v ∧ 0 ≤ v ∧
    (low < x → low / x ≤ q → q ≤ 1 → 0 < v) ∧ (q < low / x ∨ 1 < q → v = 0) := by
  rw [div_fin hx.ne']
  rcases lt_trichotomy low x with hl | hl | hl
  · obtain ⟨v, e, h0, h1, h2⟩ := powerlaw_mass (a := b) (div_pos hlow hx) ((div_lt_one hx).2 hl) q
    exact ⟨v, e, h0, fun _ => h1, h2⟩
  · subst hl
    have hq : q ≠ 1 := h.resolve_left (by simp)
    rw [div_self hx.ne']
    have : q < 1 ∨ 1 < q := lt_or_gt_of_ne hq
    exact ⟨0, powerlaw_pdf_out (by rcases this with h | h; exacts [Or.inl h, Or.inr h]), le_rfl, fun h => absurd h (lt_irrefl _), fun _ => rfl⟩
  · have h1 : 1 < low / x := (one_lt_div hx).2 hl
    have : q < low / x ∨ 1 < q := by by_cases h : q < low / x; exacts [Or.inl h, Or.inr (by linarith)]
    exact ⟨0, powerlaw_pdf_out (by rcases this with h | h; exacts [Or.inl h, Or.inr h]), le_rfl, fun h => absurd (h.trans hl) (lt_irrefl _), fun _ => rfl⟩

/-- at that corner it is infinite -/
theorem powerlaw_corner (b : ℝ) {low : ℝ} (hlow : 0 < low) : powerlaw_pdf (fin 1) (fin b) (fin low / fin low) 1 = pinf ∨ powerlaw_pdf (fin 1) (fin b) (fin low / fin low) 1 = ninf := by
  have h1 : ∀ y : ℝ, pow (fin 1) (fin y) = fin 1 := fun y => by rw [pow_fin_pos one_pos, Real.one_rpow]
  rw [div_fin hlow.ne', div_self hlow.ne']
  unfold powerlaw_pdf
  simp only [one_def]
  rw [if_neg (by simp), h1]
  by_cases hb : feq (fin b) (-fin 1)
  · left
    rw [if_pos hb, div_fin one_ne_zero, div_one]
    have e : log (fin 1) = fin 0 := by simp [F.log]
    have e2 : (fin 1 / fin 0 : F) = pinf := by show (if (0:ℝ) = 0 then infOfSign 1 else _) = pinf; simp [infOfSign]
    rw [e, e2, fin_mul_pinf, infOfSign, if_pos one_pos]
  · rw [if_neg hb, add_fin, h1, sub_fin, sub_self]
    have hs : 1 + b ≠ 0 := by
      intro h
      apply hb
      rw [show b = -1 by linarith]
      exact ⟨rfl, by simp⟩
    have e2 : (fin (1 + b) / fin 0 : F) = infOfSign (1 + b) := by show (if (0:ℝ) = 0 then infOfSign (1 + b) else _) = _; simp
    rw [e2]
    rcases lt_or_gt_of_ne hs with h | h
    · right; rw [infOfSign, if_neg (by linarith), if_pos h, fin_mul_ninf, infOfSign, if_neg (by norm_num), if_pos (by norm_num)]
    · left; rw [infOfSign, if_pos h, fin_mul_pinf, infOfSign, if_pos one_pos]

theorem init_bind_ok {α β : Type} {x : Except InitErr α} {f : α → Except InitErr β} {b : β} (h : (x >>= f) = .ok b) : ∃ a, x = .ok a ∧ f a = .ok b := by
  cases x with
  | error e => cases h
  | ok a => exact ⟨a, rfl, h⟩

theorem PLRatio.make_ok {nm nq k : ℕ} {a b c d : Arr ℝ} {mmin mmax : ℝ} {m : PLRatio} (h : PLRatio.make nm nq a b c d mmin mmax k = .ok m) :
    m.mmin = mmin ∧ m.mmax = mmax ∧ m.m1pe = a ∧ m.qpe = b ∧ m.m1inj = c ∧ m.qinj = d := by
  unfold PLRatio.make at h
  split at h
  · simp [bind, Except.bind, throw, throwThe, MonadExceptOf.throw] at h
  split at h
  · simp [bind, Except.bind, throw, throwThe, MonadExceptOf.throw] at h
  simp only [pure_bind] at h
  obtain ⟨s, -, h⟩ := init_bind_ok h
  obtain ⟨sq, -, h⟩ := init_bind_ok h
  simp only [pure, Except.pure, Except.ok.injEq] at h
  subst h
  exact ⟨rfl, rfl, rfl, rfl, rfl, rfl⟩

/-- the two numbers multiplied for one sample: finite -/
theorem PLRatio.numerator (m : PLRatio) (twoD : Bool) (m1 q : Arr ℝ) {alpha low high beta : ℝ} (hlow : 0 < low) (hlh : low < high) (c v : ℕ → ℝ) (i : ℕ) (hm : 0 < m1.get i)
    (h : m1.get i ≠ low ∨ q.get i ≠ 1) : ∃ r, m.p_m1 twoD m1 (fin alpha) (fin low) (fin high) c i * m.p_q twoD q m1 (fin beta) (fin low) v i = fin r := by
  obtain ⟨a, ea, -⟩ := powerlaw_mass (a := -alpha) hlow hlh (m1.get i)
  obtain ⟨b, eb, -⟩ := powerlaw_ratio (b := beta) hlow hm (q.get i) h
  unfold PLRatio.p_m1 PLRatio.p_q
  rw [neg_fin, ea, eb, perturbBy_fin, perturbBy_fin, mul_fin, mul_fin, mul_fin]
  exact ⟨_, rfl⟩

/-- **C146 fails** when the minimum mass is a point of the mass grid, in particular for the default: the mass ratio density at that mass and ratio 1 is infinite, so is the normalisation,
and the density of every sample (other than one at that very corner) is exactly zero, whatever the other hyper-parameters. -/
theorem C146_minimum_on_grid_fails {nm nq k : ℕ} {a b c d : Arr ℝ} {mmin mmax : ℝ} {m : PLRatio} (h : PLRatio.make nm nq a b c d mmin mmax k = .ok m) (h0 : 0 < mmin) (hmm : mmin < mmax)
    (alpha beta low high : ℝ) (hlh : low < high) (cs vs : ℕ → ℝ) (hgrid : ∃ j < 1000, low = (linspace mmin mmax 1000).get j) :
    (m.norm (fin alpha) (fin low) (fin high) cs (fin beta) vs = pinf ∨ m.norm (fin alpha) (fin low) (fin high) cs (fin beta) vs = ninf) ∧
    ∀ (twoD : Bool) (m1 q : Arr ℝ), ∃ p, m.call twoD m1 q { alpha := some (fin alpha), beta := some (fin beta), mmin := some (fin low), mmax := some (fin high), cs := some cs, vs := some vs } = .ok p ∧
      ∀ i, 0 < m1.get i → (m1.get i ≠ low ∨ q.get i ≠ 1) → p i = fin 0 := by
  obtain ⟨e1, e2, -⟩ := PLRatio.make_ok h
  obtain ⟨j, hj, hlow⟩ := hgrid
  have hmax : 0 < mmax := h0.trans hmm
  have hmpos : ∀ i < 1000, 0 < m.ms.get i := by
    intro i hi
    have := (_root_.linspace_mem hmm.le (n := 1000) (by norm_num) hi).1
    rw [PLRatio.ms, e1, e2]; linarith
  have hmj : m.ms.get j = low := by rw [PLRatio.ms, e1, e2, hlow]
  have hl0 : 0 < low := by rw [← hmj]; exact hmpos j hj
  have hminc : ∀ i, i + 1 < 1000 → m.ms.get i < m.ms.get (i + 1) := fun i _ => by
    rw [PLRatio.ms, e1, e2]; exact linspace_strictMono hmm (by norm_num) (Nat.lt_succ_self i)
  have hq1 : m.mmin / m.mmax < 1 := by rw [e1, e2]; exact (div_lt_one hmax).2 hmm
  have hqinc : ∀ i, i + 1 < 500 → m.qs.get i < m.qs.get (i + 1) := fun i _ => linspace_strictMono hq1 (by norm_num) (Nat.lt_succ_self i)
  have hq499 : m.qs.get 499 = 1 := linspace_last _ _ (n := 500) (by norm_num)
  have hqne : ∀ i < 500, i ≠ 499 → m.qs.get i ≠ 1 := by
    intro i hi hne
    rw [← hq499]
    exact (linspace_strictMono hq1 (n := 500) (by norm_num) (show i < 499 by omega)).ne
  obtain ⟨pm, epm, -, hpm, -⟩ := powerlaw_mass (a := -alpha) hl0 hlh low
  have hpm0 := hpm le_rfl hlh.le
  have hN : m.norm (fin alpha) (fin low) (fin high) cs (fin beta) vs = pinf ∨ m.norm (fin alpha) (fin low) (fin high) cs (fin beta) vs = ninf := by
    have fine : ∀ j' < 1000, ∀ i < 500, (m.ms.get j' ≠ low ∨ m.qs.get i ≠ 1) → ∃ r, powerlaw_pdf (fin (m.ms.get j')) (-fin alpha) (fin low) (fin high) * perturbBy m.s cs (Real.log (m.ms.get j')) *
        powerlaw_pdf (fin (m.qs.get i)) (fin beta) (fin low / fin (m.ms.get j')) 1 * perturbBy m.sq vs (m.qs.get i) = fin r := by
      intro j' hj' i _ hne
      obtain ⟨x, ex, -⟩ := powerlaw_mass (a := -alpha) hl0 hlh (m.ms.get j')
      obtain ⟨y, ey, -⟩ := powerlaw_ratio (b := beta) hl0 (hmpos j' hj') (m.qs.get i) hne
      rw [neg_fin, ex, ey, perturbBy_fin, perturbBy_fin, mul_fin, mul_fin, mul_fin]
      exact ⟨_, rfl⟩
    have key : ∀ I : F, I = pinf ∨ I = ninf → powerlaw_pdf (fin 1) (fin beta) (fin low / fin low) 1 = I → m.norm (fin alpha) (fin low) (fin high) cs (fin beta) vs = I := by
      intro I hI eI
      have mulI : ∀ r : ℝ, 0 < r → fin r * I = I := by
        intro r hr
        rcases hI with rfl | rfl
        · rw [fin_mul_pinf, infOfSign, if_pos hr]
        · rw [fin_mul_ninf, infOfSign, if_neg (by linarith), if_pos (by linarith)]
      have mulI' : ∀ r : ℝ, 0 < r → I * fin r = I := by
        intro r hr
        rcases hI with rfl | rfl
        · show infOfSign r = _; rw [infOfSign, if_pos hr]
        · show infOfSign (-r) = _; rw [infOfSign, if_neg (by linarith), if_pos (by linarith)]
      unfold PLRatio.norm
      refine trapzF_inf hI (by norm_num) hj hminc ?_ ?_
      · intro j' hj' hne
        have hne' : m.ms.get j' ≠ low := by
          rw [← hmj]
          intro he
          rcases lt_or_gt_of_ne hne with hlt | hlt
          · have := linspace_strictMono hmm (n := 1000) (by norm_num) hlt
            rw [PLRatio.ms, e1, e2] at he; linarith
          · have := linspace_strictMono hmm (n := 1000) (by norm_num) hlt
            rw [PLRatio.ms, e1, e2] at he; linarith
        have := fun i (hi : i < 500) => fine j' hj' i hi (Or.inl hne')
        choose! r hr using this
        rw [trapzF_congr (y' := fun i => fin (r i)) (x' := fun i => fin (m.qs.get i)) (fun i hi => hr i hi) (fun _ _ => rfl), trapzF_fin]
        exact ⟨_, rfl⟩
      · refine trapzF_inf hI (by norm_num) (show 499 < 500 by norm_num) hqinc (fun i hi hne => fine j hj i hi (Or.inr (hqne i hi hne))) ?_
        rw [hmj, hq499, eI, neg_fin, epm, perturbBy_fin, perturbBy_fin, mul_fin, mulI _ (mul_pos hpm0 (Real.exp_pos _)), mulI' _ (Real.exp_pos _)]
    rcases powerlaw_corner beta hl0 with hc | hc
    · exact Or.inl (key pinf (Or.inl rfl) hc)
    · exact Or.inr (key ninf (Or.inr rfl) hc)
  refine ⟨hN, fun twoD m1 q => ⟨_, rfl, fun i hi hne => ?_⟩⟩
  obtain ⟨r, er⟩ := m.numerator twoD m1 q (alpha := alpha) (beta := beta) hl0 hlh cs vs i hi hne
  simp only [Option.getD_some, er]
  rcases hN with hN | hN <;> rw [hN] <;> rfl

/-- **C146 fails** with the default minimum mass: leaving the keyword out gives the density zero for every sample heavier than the minimum. -/
theorem C146_default_fails {nm nq k : ℕ} {a b c d : Arr ℝ} {mmin mmax : ℝ} {m : PLRatio} (h : PLRatio.make nm nq a b c d mmin mmax k = .ok m) (h0 : 0 < mmin) (hmm : mmin < mmax)
    (alpha beta high : ℝ) (hh : mmin < high) (cs vs : ℕ → ℝ) (twoD : Bool) (m1 q : Arr ℝ) :
    ∃ p, m.call twoD m1 q { alpha := some (fin alpha), beta := some (fin beta), mmax := some (fin high), cs := some cs, vs := some vs } = .ok p ∧ ∀ i, mmin < m1.get i → p i = fin 0 := by
  obtain ⟨e1, -⟩ := PLRatio.make_ok h
  obtain ⟨-, hc⟩ := C146_minimum_on_grid_fails h h0 hmm alpha beta mmin high hh cs vs ⟨0, by norm_num, (linspace_zero _ _ _).symm⟩
  obtain ⟨p, ep, hp⟩ := hc twoD m1 q
  refine ⟨p, ?_, fun i hi => hp i (h0.trans hi) (Or.inl hi.ne')⟩
  rw [← ep]
  simp only [PLRatio.call, Option.getD_none, Option.getD_some, e1]

/-- the joint weight: power laws times perturbations -/
def ratioWeight (m : PLRatio) (alpha beta low high : ℝ) (cs vs : ℕ → ℝ) (x q : ℝ) : ℝ :=
  (powerlaw_pdf (fin x) (fin (-alpha)) (fin low) (fin high)).toReal * Real.exp (einsum m.s.N (fun i => m.s.bBases i (Real.log x)) cs) *
    ((powerlaw_pdf (fin q) (fin beta) (fin (low / x)) 1).toReal * Real.exp (einsum m.sq.N (fun i => m.sq.bBases i q) vs))

/-- **C146, partial** (missing: a minimum mass on the grid, where it is false).  With a minimum mass that is not a point of the mass grid, and some grid point between it and the maximum, both data sets are
evaluated with one density of mass and mass ratio: proportional to the product of the two perturbed power laws, zero outside `low ≤ m ≤ high`, `low/m ≤ q ≤ 1`, positive inside, and its trapezoidal double sum
over the 1000 × 500 grid is one. -/
theorem C146_density_partial {nm nq k : ℕ} {a b c d : Arr ℝ} {mmin mmax : ℝ} {m : PLRatio} (h : PLRatio.make nm nq a b c d mmin mmax k = .ok m) (h0 : 0 < mmin) (hmm : mmin < mmax)
    (alpha beta low high : ℝ) (hl0 : 0 < low) (hlh : low < high) (cs vs : ℕ → ℝ) (hoff : ∀ j < 1000, low ≠ (linspace mmin mmax 1000).get j)
    (hcov : ∃ j < 1000, low < (linspace mmin mmax 1000).get j ∧ (linspace mmin mmax 1000).get j ≤ high) :
    ∃ p : ℝ → ℝ → ℝ, (∃ C, 0 < C ∧ ∀ x q, p x q = C * ratioWeight m alpha beta low high cs vs x q) ∧
      trapz 1000 (fun j => trapz 500 (fun i => p ((linspace mmin mmax 1000).get j) ((linspace (mmin / mmax) 1 500).get i)) (linspace (mmin / mmax) 1 500).get) (linspace mmin mmax 1000).get = 1 ∧
      (∀ x q, 0 < x → x ≠ low → (x < low ∨ high < x ∨ q < low / x ∨ 1 < q → p x q = 0) ∧ (low < x → x ≤ high → low / x ≤ q → q ≤ 1 → 0 < p x q)) ∧
      ∀ twoD : Bool, ∃ f, m.call twoD (if twoD then a else c) (if twoD then b else d)
          { alpha := some (fin alpha), beta := some (fin beta), mmin := some (fin low), mmax := some (fin high), cs := some cs, vs := some vs } = .ok f ∧
        ∀ i, 0 < (if twoD then a else c).get i → (if twoD then a else c).get i ≠ low → f i = fin (p ((if twoD then a else c).get i) ((if twoD then b else d).get i)) := by
  obtain ⟨e1, e2, e3, e4, e5, e6⟩ := PLRatio.make_ok h
  have hmax : 0 < mmax := h0.trans hmm
  have hms : m.ms = linspace mmin mmax 1000 := by rw [PLRatio.ms, e1, e2]
  have hqs : m.qs = linspace (mmin / mmax) 1 500 := by rw [PLRatio.qs, e1, e2]
  have hq1 : mmin / mmax < 1 := (div_lt_one hmax).2 hmm
  -- the weight at a pair of points
  have hw : ∀ x q, 0 < x → x ≠ low → powerlaw_pdf (fin x) (-fin alpha) (fin low) (fin high) * perturbBy m.s cs (Real.log x) *
      powerlaw_pdf (fin q) (fin beta) (fin low / fin x) 1 * perturbBy m.sq vs q = fin (ratioWeight m alpha beta low high cs vs x q) ∧ 0 ≤ ratioWeight m alpha beta low high cs vs x q ∧
      (x < low ∨ high < x ∨ q < low / x ∨ 1 < q → ratioWeight m alpha beta low high cs vs x q = 0) ∧ (low < x → x ≤ high → low / x ≤ q → q ≤ 1 → 0 < ratioWeight m alpha beta low high cs vs x q) := by
    intro x q hx hne
    obtain ⟨u, eu, u0, u1, u2⟩ := powerlaw_mass (a := -alpha) hl0 hlh x
    obtain ⟨v, ev, v0, v1, v2⟩ := powerlaw_ratio (b := beta) hl0 hx q (Or.inl hne)
    have ev' : powerlaw_pdf (fin q) (fin beta) (fin (low / x)) 1 = fin v := by rw [← div_fin hx.ne']; exact ev
    have er : ratioWeight m alpha beta low high cs vs x q = u * Real.exp (einsum m.s.N (fun i => m.s.bBases i (Real.log x)) cs) * (v * Real.exp (einsum m.sq.N (fun i => m.sq.bBases i q) vs)) := by
      unfold ratioWeight; rw [eu, ev']; rfl
    refine ⟨?_, ?_, ?_, ?_⟩
    · rw [neg_fin, eu, ev, perturbBy_fin, perturbBy_fin, mul_fin, mul_fin, mul_fin, er]; congr 1; ring
    · rw [er]; exact mul_nonneg (mul_nonneg u0 (Real.exp_pos _).le) (mul_nonneg v0 (Real.exp_pos _).le)
    · intro hout
      rw [er]
      rcases hout with hout | hout | hout | hout
      · rw [u2 (Or.inl hout)]; ring
      · rw [u2 (Or.inr hout)]; ring
      · rw [v2 (Or.inl hout)]; ring
      · rw [v2 (Or.inr hout)]; ring
    · intro a1 a2 a3 a4
      rw [er]; exact mul_pos (mul_pos (u1 a1.le a2) (Real.exp_pos _)) (mul_pos (v1 a1 a3 a4) (Real.exp_pos _))
  have hgpos : ∀ j < 1000, 0 < (linspace mmin mmax 1000).get j := fun j hj => by
    have := (_root_.linspace_mem hmm.le (n := 1000) (by norm_num) hj).1; linarith
  have hq499 : (linspace (mmin / mmax) 1 500).get 499 = 1 := linspace_last _ _ (n := 500) (by norm_num)
  set W := ratioWeight m alpha beta low high cs vs with hW
  obtain ⟨Z, hZ⟩ : ∃ Z, Z = trapz 1000 (fun j => trapz 500 (fun i => W ((linspace mmin mmax 1000).get j) ((linspace (mmin / mmax) 1 500).get i)) (linspace (mmin / mmax) 1 500).get) (linspace mmin mmax 1000).get := ⟨_, rfl⟩
  have hinner : ∀ j < 1000, 0 ≤ trapz 500 (fun i => W ((linspace mmin mmax 1000).get j) ((linspace (mmin / mmax) 1 500).get i)) (linspace (mmin / mmax) 1 500).get := fun j hj =>
    trapz_nonneg (fun i _ => (hw _ _ (hgpos j hj) (hoff j hj).symm).2.1) (fun i _ => (linspace_strictMono hq1 (by norm_num) (Nat.lt_succ_self i)).le)
  have hZ0 : 0 < Z := by
    obtain ⟨j, hj, j1, j2⟩ := hcov
    rw [hZ]
    refine trapz_pos_of_exists (by norm_num) hinner ⟨j, hj, ?_⟩ (fun i _ => linspace_strictMono hmm (by norm_num) (Nat.lt_succ_self i))
    refine trapz_pos_of_exists (by norm_num) (fun i _ => (hw _ _ (hgpos j hj) (hoff j hj).symm).2.1) ⟨499, by norm_num, ?_⟩ (fun i _ => linspace_strictMono hq1 (by norm_num) (Nat.lt_succ_self i))
    rw [hq499]
    exact (hw _ _ (hgpos j hj) (hoff j hj).symm).2.2.2 j1 j2 ((div_le_one (hgpos j hj)).2 j1.le) le_rfl
  have hnorm : m.norm (fin alpha) (fin low) (fin high) cs (fin beta) vs = fin Z := by
    rw [PLRatio.norm, hms, hqs, hZ, ← trapzF_fin]
    refine trapzF_congr (fun j hj => ?_) (fun _ _ => rfl)
    rw [← trapzF_fin]
    exact trapzF_congr (fun i _ => (hw _ _ (hgpos j hj) (hoff j hj).symm).1) (fun _ _ => rfl)
  refine ⟨fun x q => W x q / Z, ⟨Z⁻¹, inv_pos.2 hZ0, fun x q => div_eq_inv_mul _ _⟩, ?_, ?_, ?_⟩
  · simp only [trapz_div]
    rw [← hZ, div_self hZ0.ne']
  · intro x q hx hne
    obtain ⟨-, -, a, b⟩ := hw x q hx hne
    exact ⟨fun ho => by simp only [a ho, zero_div], fun b1 b2 b3 b4 => div_pos (b b1 b2 b3 b4) hZ0⟩
  · intro twoD
    refine ⟨_, rfl, fun i hi hne => ?_⟩
    simp only [Option.getD_some, hnorm]
    have ea : (if twoD then m.m1pe else m.m1inj) = (if twoD then a else c) := by rw [e3, e5]
    have eb : (if twoD then m.qpe else m.qinj) = (if twoD then b else d) := by rw [e4, e6]
    obtain ⟨hx, -⟩ := hw ((if twoD then a else c).get i) ((if twoD then b else d).get i) hi hne
    unfold PLRatio.p_m1 PLRatio.p_q
    rw [ea, eb]
    obtain ⟨u, eu, -⟩ := powerlaw_mass (a := -alpha) hl0 hlh ((if twoD then a else c).get i)
    obtain ⟨v, ev, -⟩ := powerlaw_ratio (b := beta) hl0 hi ((if twoD then b else d).get i) (Or.inl hne)
    rw [neg_fin, eu, ev, perturbBy_fin, perturbBy_fin, mul_fin, mul_fin, mul_fin] at hx
    have hx' := F.fin.inj hx
    rw [neg_fin, eu, ev, perturbBy_fin, perturbBy_fin, mul_fin, mul_fin, mul_fin, ← mul_assoc, hx', div_fin hZ0.ne']

/-- **C146** (keywords).  A call succeeds exactly if `alpha`, `beta`, `mmax`, `cs` and `vs` are given and nothing unknown is; a missing `beta` or `vs` is a KeyError, anything else a TypeError. -/
theorem C146_keywords (m : PLRatio) (twoD : Bool) (m1 q : Arr ℝ) (kw : PRKw) :
    ((∃ p, m.call twoD m1 q kw = .ok p) ↔ kw.alpha ≠ none ∧ kw.beta ≠ none ∧ kw.mmax ≠ none ∧ kw.cs ≠ none ∧ kw.vs ≠ none ∧ kw.others = []) ∧
    (kw.beta = none → m.call twoD m1 q kw = .error (.keyError "beta")) ∧
    (kw.beta ≠ none → kw.vs = none → m.call twoD m1 q kw = .error (.keyError "vs")) ∧
    (kw.beta ≠ none → kw.vs ≠ none → (kw.alpha = none ∨ kw.mmax = none ∨ kw.cs = none ∨ kw.others ≠ []) → m.call twoD m1 q kw = .error .typeError) := by
  obtain ⟨alpha, beta, mmin, mmax, cs, vs, others⟩ := kw
  cases beta <;> cases vs <;> cases alpha <;> cases mmax <;> cases cs <;> cases others <;> simp [PLRatio.call]

/-- the constructor without line 220 succeeds with the default order and at least four splines of each kind -/
theorem PLRatio.make_exists {nm nq : ℕ} (hm : 4 ≤ nm) (hq : 4 ≤ nq) (a b c d : Arr ℝ) (mmin mmax : ℝ) : ∃ m, PLRatio.make nm nq a b c d mmin mmax 4 = .ok m := by
  have key : ∀ (n : ℕ), 4 ≤ n → ∀ lo hi : ℝ, ∃ s, Spline.init n (some (plKnots n 4 lo hi)) (some (linspace lo hi (n + 2 - 4))) lo hi 4 = .ok s := by
    intro n hn lo hi
    unfold Spline.init
    simp only [pure_bind]
    rw [if_pos]
    · exact ⟨_, rfl⟩
    · change (4 - 1) + (n + 2 - 4) + (4 - 1) = n + 4; omega
  obtain ⟨s, es⟩ := key nm hm (Real.log mmin) (Real.log mmax)
  obtain ⟨t, et⟩ := key nq hq 0 1
  unfold PLRatio.make
  rw [if_neg (by omega), if_neg (by omega)]
  simp only [pure_bind, es, et]
  exact ⟨_, rfl⟩

/-- non-vacuity: ten splines each on 2..100 with a minimum mass of 5 (not a grid point) and a maximum of 80; the joint density is positive at masses 30 and 24 -/
example (a b c d : Arr ℝ) (cs vs : ℕ → ℝ) : ∃ m, PLRatio.make 10 10 a b c d 2 100 4 = .ok m ∧ ∃ p : ℝ → ℝ → ℝ,
    (∃ C, 0 < C ∧ ∀ x q, p x q = C * ratioWeight m 2.35 1 5 80 cs vs x q) ∧ 0 < p 30 0.8 ∧ p 3 0.8 = 0 ∧ p 30 0.1 = 0 := by
  obtain ⟨m, hm⟩ := PLRatio.make_exists (nm := 10) (nq := 10) (by norm_num) (by norm_num) a b c d 2 100
  have hoff : ∀ j < 1000, (5 : ℝ) ≠ (linspace 2 100 1000).get j := by
    intro j _ he
    rw [linspace_get] at he
    have h2 : ((98 * j : ℕ) : ℝ) = ((2997 : ℕ) : ℝ) := by
      push_cast at he ⊢
      have h999 : ((1000 : ℝ) - 1) = 999 := by norm_num
      rw [h999] at he
      field_simp at he
      linarith
    have h3 : 98 * j = 2997 := by exact_mod_cast h2
    omega
  obtain ⟨p, hp, -, hs, -⟩ := C146_density_partial hm (by norm_num) (by norm_num) 2.35 1 5 80 (by norm_num) (by norm_num) cs vs hoff
    ⟨100, by norm_num, by rw [linspace_get]; norm_num, by rw [linspace_get]; norm_num⟩
  exact ⟨m, hm, p, hp, (hs 30 0.8 (by norm_num) (by norm_num)).2 (by norm_num) (by norm_num) (by norm_num) (by norm_num),
    (hs 3 0.8 (by norm_num) (by norm_num)).1 (Or.inl (by norm_num)), (hs 30 0.1 (by norm_num) (by norm_num)).1 (Or.inr (Or.inr (Or.inl (by norm_num))))⟩

/-- and the default call on the same object returns zeros, for the event at 30 and 24 solar masses too -/
example (cs vs : ℕ → ℝ) : ∃ m, PLRatio.make 10 10 (Arr.mk 1 fun _ => 30) (Arr.mk 1 fun _ => 0.8) (Arr.mk 1 fun _ => 30) (Arr.mk 1 fun _ => 0.8) 2 100 4 = .ok m ∧
    ∃ p, m.call true (Arr.mk 1 fun _ => 30) (Arr.mk 1 fun _ => 0.8) { alpha := some (fin 2.35), beta := some (fin 1), mmax := some (fin 80), cs := some cs, vs := some vs } = .ok p ∧ p 0 = fin 0 := by
  obtain ⟨m, hm⟩ := PLRatio.make_exists (nm := 10) (nq := 10) (by norm_num) (by norm_num) (Arr.mk 1 fun _ => 30) (Arr.mk 1 fun _ => 0.8) (Arr.mk 1 fun _ => 30) (Arr.mk 1 fun _ => 0.8) 2 100
  obtain ⟨p, e, h⟩ := C146_default_fails hm (by norm_num) (by norm_num) 2.35 1 80 (by norm_num) cs vs true (Arr.mk 1 fun _ => 30) (Arr.mk 1 fun _ => 0.8)
  exact ⟨m, hm, p, e, h 0 (by norm_num)⟩

end GW
end
