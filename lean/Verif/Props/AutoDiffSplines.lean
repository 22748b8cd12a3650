import Verif.Model.AutoDiffSplines
import Verif.Props.AutoDiffDensities
import Verif.Props.SplineIdent
import Verif.Props.RedshiftSpline
import Verif.Props.Examples
import Mathlib.Data.List.GetD

/-! # Property C128: the gradients of the spline models in their coefficients -/

open Filter Topology Finset ContDiff
noncomputable section
open Classical
namespace GW
open _root_.F

/-! ### the programs compute the models -/

section values
variable {α : Type} {c : ℕ → Diff α Unit} {e : α → F} {k : ℕ → ℝ}

theorem einsumD_f {N : ℕ} (bases : ℕ → F) (h : ∀ i < N, (c i).f e () = fin (k i)) :
    (einsumD N bases c).f e () = einsumF N bases fun i => fin (k i) := by
  change ∑ i ∈ range N, bases i * (c i).f e () = _
  exact sum_congr rfl fun i hi => by rw [h i (mem_range.1 hi)]

theorem rawProjectD_f (I : Interp) (bases : ℕ → F) (h : ∀ i < I.s.N, (c i).f e () = fin (k i)) :
    (I.rawProjectD bases c).f e () = I.rawProject bases k := by
  have := einsumD_f bases h
  unfold Interp.rawProjectD Interp.rawProject
  cases I.kind
  · exact this
  · exact this
  · change expUnderflow (nanToNumLogY ((einsumD I.s.N bases c).f e ())) = _
    rw [this]; rfl
  · change expUnderflow (nanToNumLogY ((einsumD I.s.N bases c).f e ())) = _
    rw [this]; rfl

theorem trapzD_f (n : ℕ) (y : ℕ → Diff α Unit) (x : ℕ → F) : (trapzD n y x).f e () = trapzF n (fun j => (y j).f e ()) x := rfl

theorem bin_div_f (p q : Diff α Unit) : (Diff.bin .div p q).f e () = p.f e () / q.f e () := rfl
theorem const_f (v : F) : (Diff.const v : Diff α Unit).f e () = v := rfl

theorem normD_f (I : Interp) (h : ∀ i < I.s.N, (c i).f e () = fin (k i)) : (I.normD c).f e () = I.norm k := by
  unfold Interp.normD Interp.norm
  split_ifs
  · rw [bin_div_f, trapzD_f]
    simp only [rawProjectD_f I _ h, const_f]
  · rfl

theorem projectD_f (I : Interp) (bases : ℕ → F) (h : ∀ i < I.s.N, (c i).f e () = fin (k i)) : (I.projectD bases c).f e () = I.project bases k := by
  change (I.rawProjectD bases c).f e () * (I.normD c).f e () = _
  rw [rawProjectD_f I bases h, normD_f I h]
  rfl

theorem scatterD_f : ∀ (mask : List Bool) (vs : List (Diff α Unit)), (scatterD mask vs).map (fun p => p.f e ()) = scatter mask (vs.map fun p => p.f e ())
  | [], _ => by simp [scatterD, scatter]
  | true :: m, [] => by simpa [scatterD, scatter] using ⟨rfl, scatterD_f m []⟩
  | true :: m, v :: vs => by simpa [scatterD, scatter] using scatterD_f m vs
  | false :: m, vs => by simpa [scatterD, scatter] using ⟨rfl, scatterD_f m vs⟩

theorem callD_f (m : Base1D) (pe : Bool) (h : ∀ i < m.interp.s.N, (c i).f e () = fin (k i)) :
    (m.callD c pe).map (fun p => p.f e ()) = m.call k pe := by
  cases pe
  · simp only [Base1D.callD, Base1D.call, Base1D.injPdf, Bool.false_eq_true, if_false, scatterD_f, List.map_map]
    congr 1
    exact List.map_congr_left fun b _ => projectD_f m.interp b h
  · simp only [Base1D.callD, Base1D.call, Base1D.pePdf, if_true, scatterD_f, List.map_map]
    congr 1
    exact List.map_congr_left fun b _ => projectD_f m.interp b h

theorem zipWithD_f (op : Diff (Unit ⊕ Unit) Unit) (g : F → F → F) (hop : ∀ p q : Diff α Unit, (Diff.bin op p q).f e () = g (p.f e ()) (q.f e ())) :
    ∀ (a b : List (Diff α Unit)), (List.zipWith (Diff.bin op) a b).map (fun p => p.f e ()) =
      List.zipWith g (a.map fun p => p.f e ()) (b.map fun p => p.f e ())
  | [], _ => by simp
  | _ :: _, [] => by simp
  | p :: a, q :: b => by
    simp only [List.zipWith_cons_cons, List.map_cons, hop, zipWithD_f op g hop a b]

theorem mulArrD_f (a b : List (Diff α Unit)) : (mulArrD a b).map (fun p => p.f e ()) = mulArr (a.map fun p => p.f e ()) (b.map fun p => p.f e ()) :=
  zipWithD_f .mul (· * ·) (fun _ _ => rfl) a b

theorem weightD_f (m : PLSpline) (dV z : ℝ) (bases : ℕ → F) (lamb : Diff α Unit) {l : ℝ} (hl : lamb.f e () = fin l)
    (h : ∀ i < m.interp.s.N, (c i).f e () = fin (k i)) :
    (m.weightD dV z bases lamb c).f e () = fin dV * F.pow (1 + fin z) (fin (l - 1)) * F.exp (m.interp.project bases k) := by
  change fin dV * F.pow (1 + fin z) (lamb.f e () - 1) * F.exp ((m.interp.projectD bases c).f e ()) = _
  rw [hl, projectD_f _ _ h, one_def, sub_fin]

theorem normalizationD_f (m : PLSpline) (lamb : Diff α Unit) {l : ℝ} (hl : lamb.f e () = fin l) (h : ∀ i < m.interp.s.N, (c i).f e () = fin (k i)) :
    (m.normalizationD lamb c).f e () = m.normalization l k := by
  unfold PLSpline.normalizationD PLSpline.normalization
  rw [trapzD_f]
  simp only [weightD_f m _ _ _ lamb hl h]

theorem zcallD_f (m : PLSpline) (twoD : Bool) (z : Arr ℝ) (lamb : Diff α Unit) (i : ℕ) {l : ℝ} (hl : lamb.f e () = fin l)
    (h : ∀ i < m.interp.s.N, (c i).f e () = fin (k i)) : (m.callD twoD z lamb c i).f e () = m.call twoD z l k i := by
  unfold PLSpline.callD PLSpline.call
  rw [sel_f]
  split_ifs
  · rw [bin_div_f, normalizationD_f m lamb hl h]
    unfold PLSpline.probD PLSpline.prob
    rw [weightD_f m _ _ _ lamb hl h]
  · rfl

theorem diffD_f : ∀ (d : ℕ) {c : ℕ → Diff α Unit} {k : ℕ → ℝ} (_ : ∀ i, (c i).f e () = fin (k i)) (i : ℕ), (diffD d c i).f e () = fin (diffN d k i)
  | 0, _, _, h, i => h i
  | d + 1, c, k, h, i => diffD_f d (k := fun i => k (i + 1) - k i) (fun j => by
      change (c (j + 1)).f e () - (c j).f e () = _
      rw [h, h, sub_fin]) i

theorem differencePriorD_f (N d : ℕ) (inv : Diff α Unit) {v : ℝ} (hv : inv.f e () = fin v) (h : ∀ i, (c i).f e () = fin (k i)) :
    (differencePriorD N c inv d).f e () = fin (apply_difference_prior N k v d) := by
  change fin (-0.5) * inv.f e () * ∑ i ∈ range (N - d), (diffD d c i).f e () * (diffD d c i).f e () = _
  simp only [diffD_f d h, hv, mul_fin, sum_fin, apply_difference_prior]

end values

/-! ### soundness -/

namespace Diff.Sound

variable {α : Type} [Fintype α] {x : α → ℝ}

theorem sumD : ∀ (n : ℕ) {p : ℕ → Diff α Unit} {f : (α → ℝ) → ℕ → ℝ} (_ : ∀ i < n, (p i).Sound x fun y => f y i),
    (GW.sumD n p).Sound x fun y => ∑ i ∈ range n, f y i
  | 0, p, f, _ => by
    have : GW.sumD 0 p = .const (fin 0) := by
      simp [GW.sumD, Diff.const, zero_def]
    rw [this]
    simpa using Diff.Sound.const (x := x) 0
  | n + 1, p, f, h => by
    have : GW.sumD (n + 1) p = .bin .add (GW.sumD n p) (p n) := by
      simp only [GW.sumD, sum_range_succ]; rfl
    rw [this]
    simp only [sum_range_succ]
    exact (sumD n fun i hi => h i (by omega)).add (h n (by omega))

theorem einsumD {N : ℕ} {bases : ℕ → F} {B : ℕ → ℝ} {c : ℕ → Diff α Unit} {k : (α → ℝ) → ℕ → ℝ} (hB : ∀ i < N, bases i = fin (B i))
    (hc : ∀ i, (c i).Sound x fun y => k y i) : (GW.einsumD N bases c).Sound x fun y => einsum N B (k y) := by
  refine sumD N fun i hi => ?_
  rw [hB i hi]
  exact (const (B i)).mul (hc i)

theorem trapzD {n : ℕ} {y : ℕ → Diff α Unit} {f : (α → ℝ) → ℕ → ℝ} {g : ℕ → ℝ} (h : ∀ j < n, (y j).Sound x fun t => f t j) :
    (GW.trapzD n y fun j => fin (g j)).Sound x fun t => trapz n (f t) g := by
  refine (const 0.5).mul (sumD (n - 1) fun i hi => ?_)
  rw [sub_fin]
  exact (const _).mul ((h (i + 1) (by omega)).add (h i (by omega)))

end Diff.Sound

/-! ## Specification -/

/-- a spline set-up the constructors accept, with knots that are not closer than the code's tolerance (in the spline's own coordinate) -/
def Regular (kind : Kind) (n k : ℕ) (lo hi : ℝ) : Prop :=
  2 ≤ k ∧ k ≤ n ∧ match kind with
    | .b | .logY => 1 / 1000000 ≤ (hi - lo) / ((n : ℝ) - k + 1)
    | .logX | .logXY => 0 < lo ∧ 0 < hi ∧ 1 / 1000000 ≤ (Real.log hi - Real.log lo) / ((n : ℝ) - k + 1)

/-- coefficients at which the spline is a number: the normalising integral of the linear classes is not 0, the coefficients of the log classes do not
underflow -/
def Admissible (I : Interp) (n : ℕ) (c : ℕ → ℝ) : Prop :=
  match I.kind with
  | .b | .logX => isfinite (I.norm c)
  | .logY | .logXY => ∀ i < n, -F.BIG < c i

/-! ### the splines -/

section splines
variable {α : Type} [Fintype α] {θ : α → ℝ} {c : ℕ → Diff α Unit} {k : (α → ℝ) → ℕ → ℝ}

theorem logD_sound {p : Diff α Unit} {f : (α → ℝ) → ℝ} (hp : p.Sound θ f) (h : -F.BIG < f θ) :
    ((p.andThen nanToNumLogYD).andThen expUnderflowD).Sound θ fun y => Real.exp (f y) := by
  have h1 : (p.andThen nanToNumLogYD).Sound θ f :=
    hp.un nanToNumLogYD id 1 (.of_forall fun t => rfl) (hasDerivAt_id _) fun ct => by simp [nanToNumLogYD]
  refine h1.un expUnderflowD Real.exp (Real.exp (f θ)) ?_ (Real.hasDerivAt_exp _) fun ct => ?_
  · filter_upwards [lt_mem_nhds h] with t ht
    simp [expUnderflowD, expUnderflow, not_le.2 ht]
  · simp [expUnderflowD, expUnderflow, not_le.2 h]

/-- the projection onto a row of finite basis values -/
theorem rawProjectD_lin (I : Interp) (hk : I.kind = .b ∨ I.kind = .logX) {bases : ℕ → F} {B : ℕ → ℝ} (hB : ∀ i, bases i = fin (B i))
    (hc : ∀ i, (c i).Sound θ fun y => k y i) : (I.rawProjectD bases c).Sound θ fun y => einsum I.s.N B (k y) := by
  have := Diff.Sound.einsumD (N := I.s.N) (fun i _ => hB i) hc
  unfold Interp.rawProjectD
  rcases hk with h | h <;> rw [h] <;> exact this

theorem rawProjectD_log (I : Interp) (hk : I.kind = .logY ∨ I.kind = .logXY) {bases : ℕ → F} {B : ℕ → ℝ} (hB : ∀ i, bases i = fin (B i))
    (hc : ∀ i, (c i).Sound θ fun y => k y i) (h : -F.BIG < einsum I.s.N B (k θ)) :
    (I.rawProjectD bases c).Sound θ fun y => Real.exp (einsum I.s.N B (k y)) := by
  have := logD_sound (Diff.Sound.einsumD (N := I.s.N) (fun i _ => hB i) hc) h
  unfold Interp.rawProjectD
  rcases hk with h | h <;> rw [h] <;> exact this

theorem bases_lin (I : Interp) (hk : I.kind = .b ∨ I.kind = .logX) (x : ℝ) : ∃ B : ℕ → ℝ, ∀ i, I.bases i x = fin (B i) := by
  rcases hk with h | h
  · exact ⟨fun i => I.s.bBases i x, fun i => by rw [Interp.bases, h]⟩
  · exact ⟨fun i => I.s.logXBases i x, fun i => by rw [Interp.bases, h]⟩

theorem evalD_lin (I : Interp) (hk : I.kind = .b ∨ I.kind = .logX) (hc : ∀ i, (c i).Sound θ fun y => k y i) (hn : isfinite (I.norm (k θ))) (x : ℝ) :
    ∃ f, (I.evalD c x).Sound θ f := by
  obtain ⟨B, hB⟩ := bases_lin I hk x
  have h1 := rawProjectD_lin I hk hB hc
  by_cases hnorm : I.normalize = true
  · choose G hG using fun j => bases_lin I hk (I.grid.get j)
    have ht := Diff.Sound.trapzD (n := I.grid.len) (g := I.grid.get) fun j _ => rawProjectD_lin I hk (hG j) hc
    have h0 : trapz I.grid.len (fun j => einsum I.s.N (G j) (k θ)) I.grid.get ≠ 0 := by
      intro h0
      have hv : trapzF I.grid.len (fun j => I.rawProject (fun i => I.bases i (I.grid.get j)) (k θ)) (fun j => fin (I.grid.get j)) = fin 0 := by
        rw [← h0, ← trapzF_fin]
        refine trapzF_congr (fun j _ => ?_) fun _ _ => rfl
        unfold Interp.rawProject
        rcases hk with h | h <;> simp only [h, hG, einsumF_fin]
      rw [Interp.norm, if_pos hnorm, hv, one_def, div_fin_zero] at hn
      simp [infOfSign] at hn
    have h2 := (Diff.Sound.const (x := θ) 1).div ht h0
    have h3 : (I.normD c).Sound θ fun y => 1 / trapz I.grid.len (fun j => einsum I.s.N (G j) (k y)) I.grid.get := by
      unfold Interp.normD
      rw [if_pos hnorm]
      exact h2
    exact ⟨_, h1.mul h3⟩
  · refine ⟨_, h1.mul (q := I.normD c) (h := fun _ => 1) ?_⟩
    unfold Interp.normD
    rw [if_neg hnorm]
    exact Diff.Sound.const 1

theorem evalD_log (I : Interp) (hk : I.kind = .logY ∨ I.kind = .logXY) (hc : ∀ i, (c i).Sound θ fun y => k y i) {lo hi : ℝ}
    (hin : ∀ x ∈ Set.Icc lo hi, ∃ B : ℕ → ℝ, (∀ i, I.bases i x = fin (B i)) ∧ -F.BIG < einsum I.s.N B (k θ))
    (hg : ∀ j < I.grid.len, I.grid.get j ∈ Set.Icc lo hi) (hl : 2 ≤ I.grid.len) (hs : ∀ j, j + 1 < I.grid.len → I.grid.get j < I.grid.get (j + 1))
    (x : ℝ) (hx : x ∈ Set.Icc lo hi) : ∃ f, (I.evalD c x).Sound θ f ∧ ∀ t, 0 ≤ f t := by
  obtain ⟨B, hB, hb⟩ := hin x hx
  have h1 := rawProjectD_log I hk hB hc hb
  by_cases hnorm : I.normalize = true
  · have : ∀ j, ∃ B : ℕ → ℝ, j < I.grid.len → (∀ i, I.bases i (I.grid.get j) = fin (B i)) ∧ -F.BIG < einsum I.s.N B (k θ) := by
      intro j
      by_cases hj : j < I.grid.len
      · obtain ⟨B, h⟩ := hin _ (hg j hj)
        exact ⟨B, fun _ => h⟩
      · exact ⟨0, fun h => absurd h hj⟩
    choose G hG using this
    have ht := Diff.Sound.trapzD (n := I.grid.len) (g := I.grid.get) fun j hj => rawProjectD_log I hk (hG j hj).1 hc (hG j hj).2
    have h0 : 0 < trapz I.grid.len (fun j => Real.exp (einsum I.s.N (G j) (k θ))) I.grid.get := trapz_pos hl (fun _ _ => Real.exp_pos _) hs
    have h2 := (Diff.Sound.const (x := θ) 1).div ht h0.ne'
    have h3 : (I.normD c).Sound θ fun y => 1 / trapz I.grid.len (fun j => Real.exp (einsum I.s.N (G j) (k y))) I.grid.get := by
      unfold Interp.normD
      rw [if_pos hnorm]
      exact h2
    refine ⟨_, h1.mul h3, fun t => mul_nonneg (Real.exp_pos _).le (one_div_nonneg.2 ?_)⟩
    exact (trapz_pos hl (fun _ _ => Real.exp_pos _) hs).le
  · refine ⟨_, h1.mul (q := I.normD c) (h := fun _ => 1) ?_, fun t => mul_nonneg (Real.exp_pos _).le zero_le_one⟩
    unfold Interp.normD
    rw [if_neg hnorm]
    exact Diff.Sound.const 1

theorem Interp.make_kind {kind : Kind} {n : ℕ} {lo hi : ℝ} {q : ℕ} {nrm : Bool} {I : Interp} (h : Interp.make kind n lo hi q nrm = .ok I) :
    I.kind = kind ∧ I.normalize = nrm ∧ (match kind with
      | .b | .logY => Spline.init n none none lo hi q = .ok I.s
      | .logX | .logXY => logXInit n none none lo hi q = .ok I.s) := by
  cases kind <;> simp only [Interp.make] at h
  · cases hs : Spline.init n none none lo hi q with
    | error e => simp [hs, Bind.bind, Except.bind] at h
    | ok s =>
      simp only [hs, Bind.bind, Except.bind, Pure.pure, Except.pure, Except.ok.injEq] at h
      subst h; exact ⟨rfl, rfl, rfl⟩
  · cases hs : logXInit n none none lo hi q with
    | error e => simp [hs, Bind.bind, Except.bind] at h
    | ok s =>
      simp only [hs, Bind.bind, Except.bind, Pure.pure, Except.pure, Except.ok.injEq] at h
      subst h; exact ⟨rfl, rfl, rfl⟩
  · cases hs : Spline.init n none none lo hi q with
    | error e => simp [hs, Bind.bind, Except.bind] at h
    | ok s =>
      simp only [hs, Bind.bind, Except.bind, Pure.pure, Except.pure, Except.ok.injEq] at h
      subst h; exact ⟨rfl, rfl, rfl⟩
  · cases hs : logXInit n none none lo hi q with
    | error e => simp [hs, Bind.bind, Except.bind] at h
    | ok s =>
      simp only [hs, Bind.bind, Except.bind, Pure.pure, Except.pure, Except.ok.injEq] at h
      subst h; exact ⟨rfl, rfl, rfl⟩

theorem DefaultOK.bases_logY {n q : ℕ} {a b : ℝ} {s : Spline} (h : DefaultOK n q a b s) {x : ℝ} (hx : a ≤ x ∧ x ≤ b) (i : ℕ) :
    s.logYBases i x = fin (s.bBases i x) := by
  obtain ⟨-, -, hlo, hhi, -, -⟩ := init_default_eq (by have := h.hk; omega) h.hn h.hs
  rw [Spline.logYBases, if_neg]
  unfold Spline.outside
  rw [hlo, hhi]
  push Not
  exact hx

theorem DefaultOK.bases_logXY {n q : ℕ} {a b : ℝ} {s : Spline} (h : DefaultOK n q a b s) {x : ℝ} (hx : a ≤ Real.log x ∧ Real.log x ≤ b) (i : ℕ) :
    s.logXYBases i x = fin (s.bBases i (Real.log x)) := by
  rw [Spline.logXYBases, if_neg, h.bases_logY hx]
  obtain ⟨-, -, hlo, hhi, -, -⟩ := init_default_eq (by have := h.hk; omega) h.hn h.hs
  unfold Spline.outside
  rw [hlo, hhi]
  push Not
  exact hx

/-- a spline is a sound program of sound coefficients, everywhere on its range -/
theorem evalD_sound {kind : Kind} {n q : ℕ} {lo hi : ℝ} {nrm : Bool} {I : Interp} (hI : Interp.make kind n lo hi q nrm = .ok I)
    (hr : Regular kind n q lo hi) (hc : ∀ i, (c i).Sound θ fun y => k y i) (ha : Admissible I n (k θ)) (x : ℝ) (hx : x ∈ Set.Icc lo hi) :
    ∃ f, (I.evalD c x).Sound θ f ∧ (kind = .logY ∨ kind = .logXY → ∀ t, 0 ≤ f t) := by
  obtain ⟨hk, -, hs⟩ := Interp.make_kind hI
  obtain ⟨h2, hqn, hgap⟩ := hr
  cases kind with
  | b =>
    obtain ⟨f, hf⟩ := evalD_lin I (Or.inl hk) hc (by simpa [Admissible, hk] using ha) x
    exact ⟨f, hf, by simp⟩
  | logX =>
    obtain ⟨f, hf⟩ := evalD_lin I (Or.inr hk) hc (by simpa [Admissible, hk] using ha) x
    exact ⟨f, hf, by simp⟩
  | logY =>
    have hd : DefaultOK n q lo hi I.s := ⟨h2, hqn, hgap, hs⟩
    obtain ⟨-, hN, hlo, hhi, -, -⟩ := init_default_eq (by omega) hqn hs
    have hc' : ∀ i < n, -F.BIG < k θ i := by simpa [Admissible, hk] using ha
    have hg : I.grid = linspace lo hi 1000 := by rw [Interp.grid, hk]; simp only [Spline.grid, hlo, hhi]
    refine evalD_log I (Or.inl hk) hc (lo := lo) (hi := hi) (fun y hy => ⟨fun i => I.s.bBases i y, fun i => ?_, ?_⟩) (fun j hj => ?_) ?_ (fun j hj => ?_) x hx |>.imp
      fun f hf => ⟨hf.1, fun _ => hf.2⟩
    · rw [Interp.bases, hk]
      exact hd.bases_logY hy i
    · rw [hN]
      exact hd.einsum_gt _ hc' y hy
    · rw [hg] at hj ⊢
      exact _root_.linspace_mem hd.lt.le (by norm_num) hj
    · rw [hg]; change 2 ≤ 1000; norm_num
    · rw [hg]
      exact linspace_strictMono hd.lt (by norm_num) (Nat.lt_succ_self j)
  | logXY =>
    obtain ⟨l0, h0, hgap⟩ := hgap
    have hd : DefaultOK n q (Real.log lo) (Real.log hi) I.s := ⟨h2, hqn, hgap, hs⟩
    obtain ⟨-, hN, hlo, hhi, -, -⟩ := init_default_eq (by omega) hqn hs
    have hlt : lo < hi := (Real.log_lt_log_iff l0 h0).1 hd.lt
    have hc' : ∀ i < n, -F.BIG < k θ i := by simpa [Admissible, hk] using ha
    have hg : I.grid = linspace lo hi 1500 := by rw [Interp.grid, hk]; simp only [Spline.logXYGrid, hlo, hhi, Real.exp_log l0, Real.exp_log h0]
    have hlog : ∀ y ∈ Set.Icc lo hi, Real.log lo ≤ Real.log y ∧ Real.log y ≤ Real.log hi := fun y hy =>
      ⟨Real.log_le_log l0 hy.1, Real.log_le_log (l0.trans_le hy.1) hy.2⟩
    refine evalD_log I (Or.inr hk) hc (lo := lo) (hi := hi) (fun y hy => ⟨fun i => I.s.bBases i (Real.log y), fun i => ?_, ?_⟩) (fun j hj => ?_) ?_
      (fun j hj => ?_) x hx |>.imp fun f hf => ⟨hf.1, fun _ => hf.2⟩
    · rw [Interp.bases, hk]
      exact hd.bases_logXY (hlog y hy) i
    · rw [hN]
      exact hd.einsum_gt _ hc' _ (hlog y hy)
    · rw [hg] at hj ⊢
      exact _root_.linspace_mem hlt.le (by norm_num) hj
    · rw [hg]; change 2 ≤ 1500; norm_num
    · rw [hg]
      exact linspace_strictMono hlt (by norm_num) (Nat.lt_succ_self j)

theorem coefs_val (N : ℕ) (hc : ∀ i, (c i).Sound θ fun y => k y i) : ∀ᶠ y in 𝓝 θ, ∀ i < N, (c i).f (fun a => fin (y a)) () = fin (k y i) := by
  have : ∀ᶠ y in 𝓝 θ, ∀ i ∈ range N, (c i).f (fun a => fin (y a)) () = fin (k y i) := (Finset.eventually_all _).2 fun i _ => (hc i).val
  filter_upwards [this] with y h i hi
  exact h i (mem_range.2 hi)

/-- entry `i` of a list of sound programs -/
theorem getD_sound {l : List (Diff α Unit)} {L : (α → ℝ) → List F} (h : ∀ p ∈ l, ∃ f, p.Sound θ f)
    (hv : ∀ᶠ t in 𝓝 θ, l.map (fun p => p.f (fun a => fin (t a)) ()) = L t) (i : ℕ) :
    (l.getD i (.const 0)).Sound θ fun t => ((L t).getD i 0).toReal := by
  by_cases hi : i < l.length
  · obtain ⟨f, hf⟩ := h l[i] (List.getElem_mem hi)
    rw [List.getD_eq_getElem _ _ hi]
    refine hf.read ?_
    filter_upwards [hv] with t ht
    rw [← ht, List.getD_eq_getElem _ _ (by simpa using hi), List.getElem_map]
  · rw [List.getD_eq_default _ _ (not_lt.1 hi)]
    refine ((Diff.Sound.const 0).read (f' := fun t => (L t).getD i 0) ?_)
    filter_upwards [hv] with t ht
    rw [← ht, List.getD_eq_default _ _ (by simpa using not_lt.1 hi)]
    rfl

omit [Fintype α] in
theorem scatterD_mem {p : Diff α Unit} : ∀ (mask : List Bool) (vs : List (Diff α Unit)), p ∈ scatterD mask vs → p = .const 0 ∨ p ∈ vs
  | [], _, h => by simp [scatterD] at h
  | true :: m, [], h => by
    rcases List.mem_cons.1 (by simpa [scatterD] using h) with h | h
    · exact Or.inl h
    · exact scatterD_mem m [] h
  | true :: m, v :: vs, h => by
    rcases List.mem_cons.1 (by simpa [scatterD] using h) with h | h
    · exact Or.inr (h ▸ List.mem_cons_self)
    · exact (scatterD_mem m vs h).imp_right (List.mem_cons_of_mem _)
  | false :: m, vs, h => by
    rcases List.mem_cons.1 (by simpa [scatterD] using h) with h | h
    · exact Or.inl h
    · exact scatterD_mem m vs h

theorem gather_mem {p : F → Bool} {x : F} : ∀ {xs : List F}, x ∈ gather (xs.map p) xs → p x = true
  | [], h => by simp [gather] at h
  | y :: ys, h => by
    cases hp : p y
    · rw [List.map_cons, hp] at h
      exact gather_mem (xs := ys) h
    · rw [List.map_cons, hp] at h
      rcases List.mem_cons.1 h with h | h
      · exact h ▸ hp
      · exact gather_mem h

theorem design_mem {I : Interp} {lo hi : ℝ} {xs : List F} {b : ℕ → F} (h : b ∈ design I (validMask lo hi xs) xs) :
    ∃ x ∈ Set.Icc lo hi, b = fun i => I.bases i x := by
  obtain ⟨x, hx, rfl⟩ := List.mem_map.1 h
  have := gather_mem (p := fun x => decide (ge x (fin lo) ∧ le x (fin hi))) hx
  cases x with
  | fin x => exact ⟨x, by simpa using this, rfl⟩
  | _ => simp [ge, le] at this

theorem callD_entries {kind : Kind} {n d : ℕ} {xx xi : List F} {lo hi : ℝ} {nrm : Bool} {m : Base1D} (h : Base1D.make kind n xx xi lo hi d nrm = .ok m)
    (hr : Regular kind n (d + 1) lo hi) (hc : ∀ i, (c i).Sound θ fun y => k y i) (ha : Admissible m.interp n (k θ)) (pe : Bool) :
    ∀ p ∈ m.callD c pe, ∃ f, p.Sound θ f ∧ (kind = .logY ∨ kind = .logXY → ∀ t, 0 ≤ f t) := by
  obtain ⟨hI, h1, h2, h3, h4⟩ := Base1D.make_ok h
  intro p hp
  have key : ∀ xs, p ∈ scatterD (validMask lo hi xs) ((design m.interp (validMask lo hi xs) xs).map fun b => m.interp.projectD b c) →
      ∃ f, p.Sound θ f ∧ (kind = .logY ∨ kind = .logXY → ∀ t, 0 ≤ f t) := by
    intro xs hp
    rcases scatterD_mem _ _ hp with rfl | hp
    · exact ⟨_, Diff.Sound.const 0, fun _ _ => le_rfl⟩
    · obtain ⟨b, hb, rfl⟩ := List.mem_map.1 hp
      obtain ⟨x, hx, rfl⟩ := design_mem hb
      exact evalD_sound hI hr hc ha x hx
  unfold Base1D.callD at hp
  cases pe
  · rw [if_neg (by simp), h2, h4] at hp
    exact key _ hp
  · rw [if_pos rfl, h1, h3] at hp
    exact key _ hp

theorem callD_val (m : Base1D) (pe : Bool) (hc : ∀ i, (c i).Sound θ fun y => k y i) :
    ∀ᶠ t in 𝓝 θ, (m.callD c pe).map (fun p => p.f (fun a => fin (t a)) ()) = m.call (k t) pe := by
  filter_upwards [coefs_val m.interp.s.N hc] with t ht
  exact callD_f m pe ht

/-- every program of the list is sound, and computes a non-negative function -/
def AllNonneg (l : List (Diff α Unit)) (θ : α → ℝ) : Prop := ∀ p ∈ l, ∃ f, p.Sound θ f ∧ ∀ t, 0 ≤ f t

theorem mulArrD_entries {a b : List (Diff α Unit)} (ha : AllNonneg a θ) (hb : AllNonneg b θ) : AllNonneg (mulArrD a b) θ := by
  intro p hp
  obtain ⟨i, hi, rfl⟩ := List.getElem_of_mem hp
  have hl : i < a.length ∧ i < b.length := by simpa [mulArrD] using hi
  simp only [mulArrD, List.getElem_zipWith]
  obtain ⟨f, hf, h1⟩ := ha _ (List.getElem_mem hl.1)
  obtain ⟨g, hg, h2⟩ := hb _ (List.getElem_mem hl.2)
  exact ⟨_, hf.mul hg, fun t => mul_nonneg (h1 t) (h2 t)⟩

theorem getD_nonneg {l : List (Diff α Unit)} {L : (α → ℝ) → List F} (h : AllNonneg l θ)
    (hv : ∀ᶠ t in 𝓝 θ, l.map (fun p => p.f (fun a => fin (t a)) ()) = L t) (i : ℕ) : ∀ᶠ t in 𝓝 θ, 0 ≤ ((L t).getD i 0).toReal := by
  by_cases hi : i < l.length
  · obtain ⟨f, hf, h0⟩ := h l[i] (List.getElem_mem hi)
    filter_upwards [hv, hf.val] with t ht h1
    rw [← ht, List.getD_eq_getElem _ _ (by simpa using hi), List.getElem_map, h1]
    exact h0 t
  · filter_upwards [hv] with t ht
    rw [← ht, List.getD_eq_default _ _ (by simpa using not_lt.1 hi)]
    exact le_rfl

theorem getD_fin {l : List (Diff α Unit)} {L : (α → ℝ) → List F} (h : AllNonneg l θ)
    (hv : ∀ᶠ t in 𝓝 θ, l.map (fun p => p.f (fun a => fin (t a)) ()) = L t) (i : ℕ) : ∀ᶠ t in 𝓝 θ, fin ((L t).getD i 0).toReal = (L t).getD i 0 := by
  by_cases hi : i < l.length
  · obtain ⟨f, hf, h0⟩ := h l[i] (List.getElem_mem hi)
    filter_upwards [hv, hf.val] with t ht h1
    rw [← ht, List.getD_eq_getElem _ _ (by simpa using hi), List.getElem_map, h1]
    rfl
  · filter_upwards [hv] with t ht
    rw [← ht, List.getD_eq_default _ _ (by simpa using not_lt.1 hi)]
    rfl

/-! ### the redshift model -/

variable {lamb : Diff α Unit} {l : (α → ℝ) → ℝ}

theorem weightD_sound {m : PLSpline} (hk : m.interp.kind = .logX) (hn : m.interp.normalize = false) (hl : lamb.Sound θ l)
    (hc : ∀ i, (c i).Sound θ fun y => k y i) {dV z : ℝ} (hd : 0 < dV) (hz : 0 < 1 + z) (x : ℝ) :
    ∃ f, (m.weightD dV z (fun i => m.interp.bases i x) lamb c).Sound θ f ∧ ∀ t, 0 < f t := by
  obtain ⟨g, hg⟩ := evalD_lin m.interp (Or.inr hk) hc (by rw [Interp.norm_false hn]; exact isfinite_fin 1) x
  have h1 := ((Diff.Sound.const dV).mul ((Diff.Sound.const (1 + z)).pow (hl.sub (.const 1)) hz)).mul hg.exp
  exact ⟨_, h1, fun t => mul_pos (mul_pos hd (Real.rpow_pos_of_pos hz _)) (Real.exp_pos _)⟩

theorem normalizationD_sound {m : PLSpline} (hk : m.interp.kind = .logX) (hn : m.interp.normalize = false) (hl : lamb.Sound θ l)
    (hc : ∀ i, (c i).Sound θ fun y => k y i) (hd : ∀ z, 0 < z → 0 < m.parent.dV z) (h0 : 0 < m.parent.zmin) (hlt : m.parent.zmin < m.parent.zmax) :
    ∃ f, (m.normalizationD lamb c).Sound θ f ∧ ∀ t, 0 < f t := by
  have hpos : ∀ j < 1000, 0 < m.parent.zs.get j := fun j hj => h0.trans_le (_root_.linspace_mem hlt.le (by norm_num) hj).1
  have : ∀ j, ∃ f : (α → ℝ) → ℝ, j < 1000 → (m.weightD (m.parent.dV (m.parent.zs.get j)) (m.parent.zs.get j)
      (fun i => m.interp.bases i (m.parent.zs.get j)) lamb c).Sound θ f ∧ ∀ t, 0 < f t := by
    intro j
    by_cases hj : j < 1000
    · obtain ⟨f, hf⟩ := weightD_sound hk hn hl hc (hd _ (hpos j hj)) (show 0 < 1 + m.parent.zs.get j by linarith [hpos j hj]) (m.parent.zs.get j)
      exact ⟨f, fun _ => hf⟩
    · exact ⟨0, fun h => absurd h hj⟩
  choose f hf using this
  refine ⟨fun t => trapz m.parent.zs.len (fun j => f j t) m.parent.zs.get, Diff.Sound.trapzD fun j hj => (hf j hj).1, fun t => ?_⟩
  exact trapz_pos (by change 2 ≤ 1000; norm_num) (fun j hj => (hf j hj).2 t) fun i _ => linspace_strictMono hlt (by norm_num) (Nat.lt_succ_self i)

theorem zcallD_sound {m : PLSpline} (hk : m.interp.kind = .logX) (hn : m.interp.normalize = false) (hl : lamb.Sound θ l)
    (hc : ∀ i, (c i).Sound θ fun y => k y i) (hd : ∀ z, 0 < z → 0 < m.parent.dV z) (h0 : 0 < m.parent.zmin) (hlt : m.parent.zmin < m.parent.zmax)
    (twoD : Bool) (z : Arr ℝ) (i : ℕ) (hz : 0 < 1 + z.get i) (hs : 0 < (if twoD then m.parent.zpe else m.parent.zinj).get i) :
    ∃ f, (m.callD twoD z lamb c i).Sound θ f ∧ ∀ t, 0 ≤ f t := by
  have hdv : 0 < m.parent.dVdz twoD i := by
    unfold ZModel.dVdz
    cases twoD <;> exact hd _ hs
  obtain ⟨f, hf, f0⟩ := weightD_sound hk hn hl hc hdv hz ((if twoD then m.parent.zpe else m.parent.zinj).get i)
  obtain ⟨g, hg, g0⟩ := normalizationD_sound hk hn hl hc hd h0 hlt
  have hq : (Diff.bin .div (m.probD twoD z lamb c i) (m.normalizationD lamb c)).Sound θ fun t => f t / g t := hf.div hg (g0 θ).ne'
  unfold PLSpline.callD
  by_cases h : z.get i ≤ m.parent.zmax
  · exact ⟨_, hq.sel_true (Diff.Sound.const 0).harmless _ (.of_forall fun _ => h), fun t => (div_pos (f0 t) (g0 t)).le⟩
  · exact ⟨_, (Diff.Sound.const 0).sel_false hq.harmless _ (.of_forall fun _ => h), fun t => le_rfl⟩

/-! ### the coefficients -/

theorem CoefEntry.sound (e : CoefEntry α) : e.prog.Sound θ fun t => e.val t := by
  cases e
  · exact .var _
  · exact .const _

theorem coefD_sound (cs : List (CoefEntry α)) (i : ℕ) : (coefD (cs.map CoefEntry.prog) i).Sound θ fun t => coefFn (cs.map (CoefEntry.val t)) i := by
  unfold coefD coefFn
  by_cases h : i < cs.length
  · rw [List.getD_eq_getElem _ _ (by simpa using h), List.getElem_map]
    refine (CoefEntry.sound cs[i]).congr (.of_forall fun t => ?_)
    rw [List.getD_eq_getElem _ _ (by simpa using h), List.getElem_map]
  · rw [List.getD_eq_default _ _ (by simpa using h)]
    refine (Diff.Sound.const (x := θ) 0).congr (.of_forall fun t => ?_)
    rw [List.getD_eq_default _ _ (by simpa using h)]

end splines

/-! ## C128 -/

/-- the coefficients as parameters: coefficient `i` is parameter `i` -/
def coefVars (n : ℕ) (i : ℕ) : Diff (Fin n) Unit := if h : i < n then .var ⟨i, h⟩ else .const 0

theorem coefVars_sound {n : ℕ} {θ : Fin n → ℝ} (i : ℕ) : (coefVars n i).Sound θ fun t => ofFin t i := by
  unfold coefVars ofFin
  by_cases h : i < n
  · simp only [h, dite_true]
    exact .var _
  · simp only [h, dite_false]
    exact .const 0

/-- **C128** (the splines).  For every spline class, normalised or not, every set-up the constructor accepts and every point of the range: at all
coefficients where the spline is a number, the gradient in the coefficients is finite and is the derivative of the spline's value. -/
theorem C128_spline {kind : Kind} {n q : ℕ} {lo hi : ℝ} {nrm : Bool} {I : Interp} (hI : Interp.make kind n lo hi q nrm = .ok I)
    (hr : Regular kind n q lo hi) (θ : Fin n → ℝ) (ha : Admissible I n (ofFin θ)) (x : ℝ) (hx : x ∈ Set.Icc lo hi) :
    (I.evalD (coefVars n) x).Sound θ fun t => (I.eval (ofFin t) x).toReal := by
  obtain ⟨f, hf, -⟩ := evalD_sound hI hr (fun i => coefVars_sound i) ha x hx
  refine hf.read ?_
  filter_upwards [coefs_val I.s.N (fun i => coefVars_sound (n := n) (θ := θ) i)] with t ht
  exact projectD_f I _ ht

/-- **C128** (the spline models).  For every one-dimensional spline model and all samples (inside the range or not, infinite or NaN ones included), every
entry of the array the model returns, for the parameter-estimation samples as for the injections, has a gradient in the coefficients that is finite and
is the derivative of the entry. -/
theorem C128_model {kind : Kind} {n d : ℕ} {xx xi : List F} {lo hi : ℝ} {nrm : Bool} {m : Base1D} (h : Base1D.make kind n xx xi lo hi d nrm = .ok m)
    (hr : Regular kind n (d + 1) lo hi) (θ : Fin n → ℝ) (ha : Admissible m.interp n (ofFin θ)) (pe : Bool) (i : ℕ) :
    ((m.callD (coefVars n) pe).getD i (.const 0)).Sound θ fun t => ((m.call (ofFin t) pe).getD i 0).toReal := by
  refine getD_sound (fun p hp => ?_) (callD_val m pe fun i => coefVars_sound i) i
  obtain ⟨f, hf, -⟩ := callD_entries h hr (fun i => coefVars_sound i) ha pe p hp
  exact ⟨f, hf⟩

/-- **C128** (the redshift model).  `PowerlawSplineRedshiftModel`: at every slope and all coefficients, for samples above `zmax` too, the gradient of every
entry in slope (parameter `none`) and coefficients is finite and is the derivative of the entry. -/
theorem C128_redshift {n : ℕ} {dV : ℝ → ℝ} {zpe zinj : Arr ℝ} {m : PLSpline} (h : PLSpline.make n dV zpe zinj = .ok m) (hd : ∀ z, 0 < z → 0 < dV z)
    (h0 : 0 < m.parent.zmin) (hlt : m.parent.zmin < m.parent.zmax) (θ : Option (Fin n) → ℝ) (twoD : Bool) (z : Arr ℝ) (i : ℕ) (hz : 0 < z.get i)
    (hs : 0 < (if twoD then zpe else zinj).get i) :
    (m.callD twoD z (.var none) (fun j => if h : j < n then .var (some ⟨j, h⟩) else .const 0) i).Sound θ
      fun t => (m.call twoD z (t none) (ofFin fun j => t (some j)) i).toReal := by
  obtain ⟨hp, s, hs', hI⟩ := PLSpline.make_ok h
  have hc : ∀ j, ((fun j => if h : j < n then Diff.var (some ⟨j, h⟩) else .const 0) j : Diff (Option (Fin n)) Unit).Sound θ
      fun t => ofFin (fun j => t (some j)) j := by
    intro j
    unfold ofFin
    by_cases hj : j < n
    · simp only [hj, dite_true]
      exact .var _
    · simp only [hj, dite_false]
      exact .const 0
  obtain ⟨f, hf, -⟩ := zcallD_sound (by rw [hI]) (by rw [hI]) (.var none) hc (by rw [hp]; exact hd) h0 hlt twoD z i (by linarith) (by rw [hp]; exact hs)
  refine hf.read ?_
  filter_upwards [coefs_val m.interp.s.N hc] with t ht
  exact zcallD_f m twoD z (.var none) i rfl ht

/-- **C128** (the smoothing prior).  At all coefficients and every strength (parameter `none`) the gradient of `apply_difference_prior` is finite and is
its derivative. -/
theorem C128_difference_prior (n degree : ℕ) (θ : Option (Fin n) → ℝ) :
    (differencePriorD n (fun j => if h : j < n then .var (some ⟨j, h⟩) else .const 0) (.var none) degree).Sound θ
      fun t => apply_difference_prior n (ofFin fun j => t (some j)) (t none) degree := by
  have hc : ∀ j, ((fun j => if h : j < n then Diff.var (some ⟨j, h⟩) else .const 0) j : Diff (Option (Fin n)) Unit).Sound θ
      fun t => ofFin (fun j => t (some j)) j := by
    intro j
    unfold ofFin
    by_cases hj : j < n
    · simp only [hj, dite_true]
      exact .var _
    · simp only [hj, dite_false]
      exact .const 0
  have hdiff : ∀ (d : ℕ) {c : ℕ → Diff (Option (Fin n)) Unit} {k : (Option (Fin n) → ℝ) → ℕ → ℝ} (_ : ∀ j, (c j).Sound θ fun t => k t j) (i : ℕ),
      (diffD d c i).Sound θ fun t => diffN d (k t) i := by
    intro d
    induction d with
    | zero => intro c k h i; exact h i
    | succ d ih => intro c k h i; exact ih (k := fun t i => k t (i + 1) - k t i) (fun j => (h (j + 1)).sub (h j)) i
  exact ((Diff.Sound.const (-0.5)).mul (.var none)).mul (.sumD _ fun i _ => (hdiff degree hc i).mul (hdiff degree hc i))

theorem einsumD_nan {n : ℕ} (e : Fin n → F) (j : Fin n) : (einsumD n (fun _ => ninf) (coefVars n)).vjp e (fun _ => 0) j = nan := by
  change ∑ i ∈ range n, (Diff.bin .mul (.const ninf) (coefVars n i)).vjp e (fun _ => 0) j = nan
  rw [← Finset.add_sum_erase _ _ (mem_range.2 j.2)]
  have : (Diff.bin .mul (.const ninf) (coefVars n j)).vjp e (fun _ => 0) j = nan := by
    change 0 + (coefVars n j).vjp e (fun _ => 0 * ninf) j = nan
    unfold coefVars
    simp only [j.2, dite_true]
    simp only [Diff.var, if_true, Fin.eta]
    rw [zero_def]
    simp [fin_mul_ninf, infOfSign]
  rw [this, nan_add]

theorem einsum_not_finite {n : ℕ} (hn : 1 ≤ n) (θ : Fin n → ℝ) :
    ¬ isfinite ((einsumD n (fun _ => ninf) (coefVars n)).f (fun a => fin (θ a)) ()) := by
  rw [einsumD_f (k := ofFin θ) _ fun i _ => (coefVars_sound (θ := θ) i).at_point ()]
  exact not_finite_sum hn _ fun i _ => ninf_mul_not_finite _

/-- **C128, refuted outside the range of a log spline**: `LogYBSpline` and `LogXLogYBSpline`, evaluated directly at a point outside their range, return
exactly 0 for all coefficients, but the gradient is NaN in every coefficient: the basis values there are -inf and meet an exact zero. -/
theorem C128_outside_fails {kind : Kind} (hkind : kind = .logY ∨ kind = .logXY) {n q : ℕ} {lo hi : ℝ} {nrm : Bool} {I : Interp}
    (hI : Interp.make kind n lo hi q nrm = .ok I) (hr : Regular kind n q lo hi) (θ : Fin n → ℝ) (ha : Admissible I n (ofFin θ)) (x : ℝ)
    (hx : x < lo ∨ hi < x) (hx0 : kind = .logXY → 0 < x) (ct : ℝ) (j : Fin n) :
    (∀ᶠ t in 𝓝 θ, I.eval (ofFin t) x = fin 0) ∧ (I.evalD (coefVars n) x).vjp (fun a => fin (θ a)) (fun _ => fin ct) j = nan := by
  obtain ⟨hk, -, hs⟩ := Interp.make_kind hI
  obtain ⟨h2, hqn, hgap⟩ := hr
  have hn1 : 1 ≤ n := by omega
  have hk' : I.kind = .logY ∨ I.kind = .logXY := by rw [hk]; exact hkind
  have hN : I.s.N = n := by
    rcases hkind with rfl | rfl
    · exact (init_default_eq (by omega) hqn hs).2.1
    · exact (init_default_eq (by omega) hqn hs).2.1
  have hb : ∀ i, I.bases i x = ninf := by
    intro i
    rcases hkind with rfl | rfl
    · obtain ⟨-, -, hlo, hhi, -, -⟩ := init_default_eq (by omega) hqn hs
      simp only [Interp.bases, hk, Spline.logYBases]
      refine if_pos ?_
      unfold Spline.outside
      rw [hlo, hhi]
      exact hx
    · obtain ⟨-, -, hlo, hhi, -, -⟩ := init_default_eq (by omega) hqn hs
      obtain ⟨l0, h0, -⟩ := hgap
      simp only [Interp.bases, hk, Spline.logXYBases]
      refine if_pos ?_
      unfold Spline.outside
      rw [hlo, hhi]
      exact hx.imp (Real.log_lt_log (hx0 rfl)) (Real.log_lt_log h0)
  have hbf : (fun i => I.bases i x) = fun _ => ninf := funext hb
  have hraw : ∀ t : Fin n → ℝ, I.rawProject (fun _ => ninf) (ofFin t) = fin 0 := by
    intro t
    have := logYProject_out n hn1 (ofFin t)
    unfold Interp.rawProject
    rcases hk' with h | h <;> rw [h] <;> simpa only [hN] using this
  have hc' : ∀ᶠ t : Fin n → ℝ in 𝓝 θ, ∀ i < n, -F.BIG < ofFin t i := by
    have h0 : ∀ i < n, -F.BIG < ofFin θ i := by
      unfold Admissible at ha
      rcases hk' with h | h <;> rw [h] at ha <;> exact ha
    have : ∀ᶠ t : Fin n → ℝ in 𝓝 θ, ∀ i ∈ range n, -F.BIG < ofFin t i :=
      (Finset.eventually_all _).2 fun i hi => (coefVars_sound (n := n) (θ := θ) i).continuousAt.eventually (lt_mem_nhds (h0 i (mem_range.1 hi)))
    filter_upwards [this] with t ht i hi
    exact ht i (mem_range.2 hi)
  have hnorm : ∀ᶠ t : Fin n → ℝ in 𝓝 θ, ∃ r, I.norm (ofFin t) = fin r := by
    filter_upwards [hc'] with t ht
    by_cases hnr : I.normalize = true
    swap
    · exact ⟨1, Interp.norm_false (by simpa using hnr) _⟩
    rcases hkind with rfl | rfl
    · have hd : DefaultOK n q lo hi I.s := ⟨h2, hqn, hgap, hs⟩
      have := (hd.norm_eq (ofFin t) ht).2
      refine ⟨_, Eq.trans ?_ this⟩
      simp only [Interp.norm, hnr, if_true, logYNorm, Interp.grid, Interp.rawProject, Interp.bases, hk, one_def]
    · obtain ⟨l0, h0, hgap⟩ := hgap
      have hd : DefaultOK n q (Real.log lo) (Real.log hi) I.s := ⟨h2, hqn, hgap, hs⟩
      have := (hd.xynorm_eq l0 h0 (ofFin t) ht).2
      refine ⟨_, Eq.trans ?_ this⟩
      simp only [Interp.norm, hnr, if_true, logYNorm, Interp.grid, Interp.rawProject, Interp.bases, hk, one_def]
  refine ⟨?_, ?_⟩
  · filter_upwards [hnorm] with t ⟨r, hr⟩
    rw [Interp.eval, hbf, Interp.project, hraw, hr, mul_fin, zero_mul]
  · have hv : (I.rawProjectD (fun _ => ninf) (coefVars n)).vjp (fun a => fin (θ a)) (fun _ => fin ct * (I.normD (coefVars n)).f (fun a => fin (θ a)) ()) j = nan := by
      generalize fin ct * _ = u
      have key : (((einsumD I.s.N (fun _ => ninf) (coefVars n)).andThen nanToNumLogYD).andThen expUnderflowD).vjp (fun a => fin (θ a)) (fun _ => u) j = nan := by
        rw [hN]
        change (einsumD n (fun _ => ninf) (coefVars n)).vjp (fun a => fin (θ a)) (fun b => if isfinite ((einsumD n (fun _ => ninf) (coefVars n)).f
          (fun a => fin (θ a)) b) then _ else 0) j = nan
        have : (fun b : Unit => if isfinite ((einsumD n (fun _ => ninf) (coefVars n)).f (fun a => fin (θ a)) b) then
          u * expUnderflow (nanToNumLogY ((einsumD n (fun _ => ninf) (coefVars n)).f (fun a => fin (θ a)) b)) else 0) = fun _ => 0 :=
          funext fun b => if_neg (einsum_not_finite hn1 θ)
        exact (congrArg (fun ct => (einsumD n (fun _ => ninf) (coefVars n)).vjp (fun a => fin (θ a)) ct j) this).trans (einsumD_nan _ j)
      unfold Interp.rawProjectD
      rcases hk' with h | h <;> rw [h] <;> exact key
    unfold Interp.evalD
    rw [hbf]
    change (I.rawProjectD _ _).vjp _ _ j + _ = nan
    refine (congrArg (· + _) hv).trans (nan_add _)

/-! ### the B-spline example -/

/-- `m` is a one-dimensional model with `n` coefficients of one of the two classes whose value is an exponential -/
def LogModel (m : Base1D) (n : ℕ) : Prop :=
  ∃ kind xx xi lo hi d nrm, (kind = .logY ∨ kind = .logXY) ∧ Base1D.make kind n xx xi lo hi d nrm = .ok m ∧ Regular kind n (d + 1) lo hi

/-- the coefficients and the slope of the B-spline example -/
structure SplineCoefs (β : Type) where
  (mass q a1 a2 t1 t2 z : List β)
  lamb : β

/-- the four component models of the B-spline example, and the conditions on them -/
structure BuiltSplines (mass mag tilt : Pair) (zm : PLSpline) (n : Fin 6 → ℕ) (dV : ℝ → ℝ) (zpe zinj : Arr ℝ) : Prop where
  m1 : LogModel mass.m1 (n 0)
  q : LogModel mass.m2 (n 1)
  a1 : LogModel mag.m1 (n 2)
  a2 : LogModel mag.m2 (n 3)
  t1 : LogModel tilt.m1 (n 4)
  t2 : LogModel tilt.m2 (n 5)
  z : ∃ nz, PLSpline.make nz dV zpe zinj = .ok zm
  vol : ∀ z, 0 < z → 0 < dV z
  zmin : 0 < zm.parent.zmin
  zmax : zm.parent.zmin < zm.parent.zmax

/-- no coefficient of the six exponential splines is below the underflow bound -/
def SplineCoefs.NoUnderflow (C : SplineCoefs ℝ) (n : Fin 6 → ℕ) : Prop :=
  ∀ j, ∀ i < n j, -F.BIG < coefFn (![C.mass, C.q, C.a1, C.a2, C.t1, C.t2] j) i

/-- the values of the coefficients at the parameters `t` -/
def SplineCoefs.at (C : SplineCoefs (CoefEntry α)) (t : α → ℝ) : SplineCoefs ℝ :=
  ⟨C.mass.map (CoefEntry.val t), C.q.map (CoefEntry.val t), C.a1.map (CoefEntry.val t), C.a2.map (CoefEntry.val t), C.t1.map (CoefEntry.val t), C.t2.map (CoefEntry.val t),
    C.z.map (CoefEntry.val t), C.lamb.val t⟩

/-- the example's weights with these coefficients -/
def SplineCoefs.weights (C : SplineCoefs ℝ) (mass mag tilt : Pair) (zm : PLSpline) (pe : Bool) (d : PyDict (Arr ℝ)) : Except PyErr (List F) :=
  bsplineWeights mass mag tilt zm C.mass C.q C.a1 C.a2 C.t1 C.t2 C.z C.lamb pe d

/-- the programs of the example's weights -/
def SplineCoefs.weightsD (C : SplineCoefs (CoefEntry α)) (mass mag tilt : Pair) (zm : PLSpline) (pe : Bool) (d : PyDict (Arr ℝ)) :
    Except PyErr (List (Diff α Unit)) :=
  bsplineWeightsD mass mag tilt zm (C.mass.map CoefEntry.prog) (C.q.map CoefEntry.prog) (C.a1.map CoefEntry.prog) (C.a2.map CoefEntry.prog) (C.t1.map CoefEntry.prog)
    (C.t2.map CoefEntry.prog) (C.z.map CoefEntry.prog) C.lamb.prog pe d

/-- a data set the example can use: positive redshifts and priors -/
structure GoodData (d : PyDict (Arr ℝ)) (stored : Arr ℝ) (z prior : Arr ℝ) : Prop where
  redshift : need' d "redshift" = .ok z
  pri : need' d "prior" = .ok prior
  zpos : ∀ i < z.len, 0 < z.get i
  spos : ∀ i < z.len, 0 < stored.get i
  ppos : ∀ i < prior.len, 0 < prior.get i

section example_
variable {α : Type} [Fintype α] {θ : α → ℝ}

theorem LogModel.entries {m : Base1D} {n : ℕ} (h : LogModel m n) (cs : List (CoefEntry α)) (hc : ∀ i < n, -F.BIG < coefFn (cs.map (CoefEntry.val θ)) i) (pe : Bool) :
    AllNonneg (m.callD (coefD (cs.map CoefEntry.prog)) pe) θ := by
  obtain ⟨kind, xx, xi, lo, hi, d, nrm, hk, hm, hr⟩ := h
  intro p hp
  have hkd : m.interp.kind = kind := (Interp.make_kind (Base1D.make_ok hm).1).1
  obtain ⟨f, hf, h0⟩ := callD_entries hm hr (fun i => coefD_sound cs i) (by
    unfold Admissible
    rw [hkd]
    rcases hk with rfl | rfl <;> exact hc) pe p hp
  exact ⟨f, hf, h0 hk⟩

theorem divConst_entries {a : List (Diff α Unit)} (ha : AllNonneg a θ) {prior : Arr ℝ} (hp : ∀ i < prior.len, 0 < prior.get i) :
    AllNonneg (List.zipWith (Diff.bin .div) a ((List.range prior.len).map fun i => .const (fin (prior.get i)))) θ := by
  intro p h
  obtain ⟨i, hi, rfl⟩ := List.getElem_of_mem h
  have hl : i < a.length ∧ i < prior.len := by simpa using hi
  simp only [List.getElem_zipWith, List.getElem_map, List.getElem_range]
  obtain ⟨f, hf, h1⟩ := ha _ (List.getElem_mem hl.1)
  exact ⟨_, hf.div (.const _) (hp i hl.2).ne', fun t => div_nonneg (h1 t) (hp i hl.2).le⟩

theorem bsplineWeightsD_entries {mass mag tilt : Pair} {zm : PLSpline} {n : Fin 6 → ℕ} {dV : ℝ → ℝ} {zpe zinj : Arr ℝ}
    (B : BuiltSplines mass mag tilt zm n dV zpe zinj) (C : SplineCoefs (CoefEntry α)) (hC : (C.at θ).NoUnderflow n) (pe : Bool) {d : PyDict (Arr ℝ)} {z prior : Arr ℝ}
    (G : GoodData d (if pe then zpe else zinj) z prior) :
    ∃ (P : List (Diff α Unit)) (W : (α → ℝ) → List F), C.weightsD mass mag tilt zm pe d = .ok P ∧ (∀ t, (C.at t).weights mass mag tilt zm pe d = .ok (W t)) ∧ AllNonneg P θ ∧
      ∀ᶠ t in 𝓝 θ, P.map (fun p => p.f (fun a => fin (t a)) ()) = W t := by
  obtain ⟨nz, hz⟩ := B.z
  obtain ⟨hp, s, hs', hI⟩ := PLSpline.make_ok hz
  have e1 : C.weightsD mass mag tilt zm pe d = .ok (List.zipWith (Diff.bin .div) (mulArrD (mulArrD (mulArrD
      (mass.primaryRatioCallD (coefD (C.mass.map CoefEntry.prog)) (coefD (C.q.map CoefEntry.prog)) pe)
      (mag.indCallD (coefD (C.a1.map CoefEntry.prog)) (coefD (C.a2.map CoefEntry.prog)) pe)) (tilt.indCallD (coefD (C.t1.map CoefEntry.prog)) (coefD (C.t2.map CoefEntry.prog)) pe))
      ((List.range z.len).map (zm.callD pe z C.lamb.prog (coefD (C.z.map CoefEntry.prog))))) ((List.range prior.len).map fun i => .const (fin (prior.get i)))) := by
    unfold SplineCoefs.weightsD bsplineWeightsD
    simp only [G.redshift, G.pri, Bind.bind, Except.bind]
  have e2 : ∀ t, (C.at t).weights mass mag tilt zm pe d = .ok (divArr (mulArr (mulArr (mulArr
      (mass.primaryRatioCall (coefFn (C.mass.map (CoefEntry.val t))) (coefFn (C.q.map (CoefEntry.val t))) pe)
      (mag.indCall (coefFn (C.a1.map (CoefEntry.val t))) (coefFn (C.a2.map (CoefEntry.val t))) pe))
      (tilt.indCall (coefFn (C.t1.map (CoefEntry.val t))) (coefFn (C.t2.map (CoefEntry.val t))) pe))
      ((List.range z.len).map (zm.call pe z (C.lamb.val t) (coefFn (C.z.map (CoefEntry.val t)))))) ((List.range prior.len).map fun i => fin (prior.get i))) := by
    intro t
    unfold SplineCoefs.weights bsplineWeights
    simp only [G.redshift, G.pri, Bind.bind, Except.bind]
    rfl
  refine ⟨_, _, e1, e2, ?_, ?_⟩
  · refine divConst_entries (mulArrD_entries (mulArrD_entries (mulArrD_entries (mulArrD_entries ?_ ?_) (mulArrD_entries ?_ ?_)) (mulArrD_entries ?_ ?_)) ?_) G.ppos
    · exact B.q.entries _ (hC 1) pe
    · exact B.m1.entries _ (hC 0) pe
    · exact B.a1.entries _ (hC 2) pe
    · exact B.a2.entries _ (hC 3) pe
    · exact B.t1.entries _ (hC 4) pe
    · exact B.t2.entries _ (hC 5) pe
    · intro p h
      obtain ⟨i, hi, rfl⟩ := List.mem_map.1 h
      have hi := List.mem_range.1 hi
      refine zcallD_sound (by rw [hI]) (by rw [hI]) (CoefEntry.sound C.lamb) (fun i => coefD_sound C.z i) (by rw [hp]; exact B.vol) B.zmin B.zmax pe z i
        (by linarith [G.zpos i hi]) ?_
      rw [hp]
      exact G.spos i hi
  · filter_upwards [coefs_val mass.m1.interp.s.N (fun i => coefD_sound (θ := θ) C.mass i), coefs_val mass.m2.interp.s.N (fun i => coefD_sound (θ := θ) C.q i),
      coefs_val mag.m1.interp.s.N (fun i => coefD_sound (θ := θ) C.a1 i), coefs_val mag.m2.interp.s.N (fun i => coefD_sound (θ := θ) C.a2 i),
      coefs_val tilt.m1.interp.s.N (fun i => coefD_sound (θ := θ) C.t1 i), coefs_val tilt.m2.interp.s.N (fun i => coefD_sound (θ := θ) C.t2 i),
      coefs_val zm.interp.s.N (fun i => coefD_sound (θ := θ) C.z i), (CoefEntry.sound (θ := θ) C.lamb).val] with t h1 h2 h3 h4 h5 h6 h7 h8
    rw [zipWithD_f .div (· / ·) (fun _ _ => rfl)]
    simp only [Pair.primaryRatioCallD, Pair.indCallD, mulArrD_f, callD_f _ _ h1, callD_f _ _ h2, callD_f _ _ h3, callD_f _ _ h4, callD_f _ _ h5,
      callD_f _ _ h6, List.map_map, Function.comp_def, zcallD_f zm pe z C.lamb.prog _ h8 h7, const_f]
    rfl

end example_

/-- **C128** (the likelihood of the B-spline example).  The gradient of the example's log likelihood in all its coefficients and the slope is finite and is
the derivative of the log likelihood: the component models are those of the example (or any others of the exponential classes), the coefficients are
sampled parameters or fixed numbers, the data have positive redshifts and priors, and the cuts the flags switch on hold with a margin. -/
theorem C128_bspline {α : Type} [Fintype α] {mass mag tilt : Pair} {zm : PLSpline} {nc : Fin 6 → ℕ} {dV : ℝ → ℝ} {zpe zinj : Arr ℝ}
    (B : BuiltSplines mass mag tilt zm nc dV zpe zinj) (C : SplineCoefs (CoefEntry α)) (θ : α → ℝ) (hC : (C.at θ).NoUnderflow nc)
    {pe inj : PyDict (Arr ℝ)} {zp pp zi pi : Arr ℝ} (Gp : GoodData pe zpe zp pp) (Gi : GoodData inj zinj zi pi)
    {E N M : ℕ} (fl : Flags) (hlog : fl.log = false) (n Nobs : ℕ) (Tobs : F) (hv : Option F) (unscaled : F) (hfl : fl.ok)
    (hhv : fl.reconstruct_rate = true → hv ≠ none) (hE : 0 < E) (hN : 1 ≤ Nobs) (hMn : M ≤ n) :
    ∃ (P Q : List (Diff α Unit)) (W V : (α → ℝ) → List F),
      C.weightsD mass mag tilt zm true pe = .ok P ∧ C.weightsD mass mag tilt zm false inj = .ok Q ∧
      (∀ t, (C.at t).weights mass mag tilt zm true pe = .ok (W t)) ∧ (∀ t, (C.at t).weights mass mag tilt zm false inj = .ok (V t)) ∧
      let w := fun (e : Fin E) (i : Fin N) => ((W θ).getD (e * N + i) 0).toReal
      let v := fun (i : Fin M) => ((V θ).getD i 0).toReal
      ((∀ e, ∃ i, 0 < w e i) → (∃ i, 0 < v i) →
      (fl.min_neff_cut = true → (∀ e, (Nobs : ℝ) < kish (w e)) ∧ 4 * (Nobs : ℝ) * relVar v n < 1) →
      (fl.max_variance_cut = true → (Nobs : ℝ) ^ 2 * (relVar v n - 1 / n) + ∑ e, (1 / (kish (w e)) - 1 / N) < 1) →
      (fl.marginalize_selection = true → 0 < relVar v n) →
      ∃ (L : (α → ℝ) → ℝ) (g : α → ℝ),
        (∀ᶠ t in 𝓝 θ, factors (hierarchical_likelihood fl (.single fun (e : Fin E) (i : Fin N) => (W t).getD (e * N + i) 0)
          (fun (i : Fin M) => (V t).getD i 0) n Nobs Tobs hv unscaled none).1 = [fin (L t)]) ∧
        ((hyperD fl (fun (e : Fin E) (i : Fin N) => P.getD (e * N + i) (.const 0)) (fun (i : Fin M) => Q.getD i (.const 0)) n Nobs).vjp
          (fun a => fin (θ a)) (fun _ => 1) = fun a => fin (g a)) ∧
        HasFDerivAt L (formOf g) θ) := by
  obtain ⟨P, W, hP, hW, aP, vP⟩ := bsplineWeightsD_entries (pe := true) B C hC Gp
  obtain ⟨Q, V, hQ, hV, aQ, vQ⟩ := bsplineWeightsD_entries (pe := false) B C hC Gi
  refine ⟨P, Q, W, V, hP, hQ, hW, hV, ?_⟩
  intro w v hwp hvp hneff hvar hr
  have sP : ∀ i, (P.getD i (.const 0)).Sound θ fun t => ((W t).getD i 0).toReal := getD_sound (fun p hp => (aP p hp).imp fun f h => h.1) vP
  have sQ : ∀ i, (Q.getD i (.const 0)).Sound θ fun t => ((V t).getD i 0).toReal := getD_sound (fun p hp => (aQ p hp).imp fun f h => h.1) vQ
  have ew : ∀ x : ℝ, entryWeight fl.log x = x := fun x => by rw [hlog]; rfl
  obtain ⟨L, g, h1, h2, h3⟩ := C127_likelihood (E := E) (N := N) (M := M) fl (fun e i => P.getD (e * N + i) (.const 0)) (fun i => Q.getD i (.const 0))
    (fun t e i => ((W t).getD (e * N + i) 0).toReal) (fun t i => ((V t).getD i 0).toReal) n Nobs Tobs hv unscaled hfl hhv hE hN hMn θ
    (fun e i => sP _) (fun i => sQ _)
    (by
      simp only [ew]
      exact eventually_all.2 fun e => eventually_all.2 fun i => getD_nonneg aP vP _)
    (by simpa only [ew] using hwp)
    (by
      simp only [ew]
      exact eventually_all.2 fun i => getD_nonneg aQ vQ _)
    (by simpa only [ew] using hvp) (by simpa only [ew] using hneff) (by simpa only [ew] using hvar) (by simpa only [ew] using hr)
  refine ⟨L, g, ?_, h2, h3⟩
  have gP : ∀ᶠ t in 𝓝 θ, ∀ (e : Fin E) (i : Fin N), fin ((W t).getD (e * N + i) 0).toReal = (W t).getD (e * N + i) 0 :=
    eventually_all.2 fun e => eventually_all.2 fun i => getD_fin aP vP _
  have gQ : ∀ᶠ t in 𝓝 θ, ∀ (i : Fin M), fin ((V t).getD i 0).toReal = (V t).getD i 0 := eventually_all.2 fun i => getD_fin aQ vQ _
  filter_upwards [h1, gP, gQ] with t h hp hq
  simpa only [hp, hq] using h

/-! ### the example's own models, and concrete cases -/

theorem pair_parts {a b : Except InitErr Base1D} {p : Pair} (h : (Bind.bind a fun x => Bind.bind b fun y => Pure.pure (Pair.mk x y)) = .ok p) :
    a = .ok p.m1 ∧ b = .ok p.m2 := by
  cases a with
  | error e => simp [Bind.bind, Except.bind] at h
  | ok x =>
    cases b with
    | error e => simp [Bind.bind, Except.bind] at h
    | ok y =>
      simp only [Bind.bind, Except.bind, Pure.pure, Except.pure, Except.ok.injEq] at h
      subst h; exact ⟨rfl, rfl⟩

/-- the models the example builds (simple_bspline_example.py, pipeline/utils.py) meet `BuiltSplines`: cubic splines with at least four coefficients and
knots that are not closer than the code's tolerance -/
theorem BuiltSplines.of_example {nm nq na nt nz : ℕ} {m1 m1i q qi a1 a2 a1i a2i t1 t2 t1i t2i : List F} {mmax m1min m2min : ℝ} {dV : ℝ → ℝ} {zpe zinj : Arr ℝ}
    {mass mag tilt : Pair} {zm : PLSpline} (h1 : primaryRatio nm nq m1 m1i q qi mmax m1min m2min = .ok mass)
    (h2 : independentSpinMagnitudes na na a1 a2 a1i a2i = .ok mag) (h3 : independentSpinTilts nt nt t1 t2 t1i t2i = .ok tilt)
    (h4 : PLSpline.make nz dV zpe zinj = .ok zm) (r1 : Regular .logXY nm 4 m1min mmax) (r2 : Regular .logY nq 4 (m2min / mmax) 1)
    (r3 : Regular .logY na 4 0 1) (r4 : Regular .logY nt 4 (-1) 1) (hd : ∀ z, 0 < z → 0 < dV z) (h0 : 0 < zm.parent.zmin)
    (hlt : zm.parent.zmin < zm.parent.zmax) : BuiltSplines mass mag tilt zm ![nm, nq, na, na, nt, nt] dV zpe zinj :=
  ⟨⟨_, _, _, _, _, _, _, .inr rfl, (pair_parts h1).1, r1⟩, ⟨_, _, _, _, _, _, _, .inl rfl, (pair_parts h1).2, r2⟩,
    ⟨_, _, _, _, _, _, _, .inl rfl, (pair_parts h2).1, r3⟩, ⟨_, _, _, _, _, _, _, .inl rfl, (pair_parts h2).2, r3⟩,
    ⟨_, _, _, _, _, _, _, .inl rfl, (pair_parts h3).1, r4⟩, ⟨_, _, _, _, _, _, _, .inl rfl, (pair_parts h3).2, r4⟩, ⟨nz, h4⟩, hd, h0, hlt⟩

/-- a sample inside the range gets a positive value -/
theorem logcall_pos {kind : Kind} {n : ℕ} {xx xi : List F} {lo hi : ℝ} {nrm : Bool} {m : Base1D} (hk : kind = .logY ∨ kind = .logXY)
    (h : Base1D.make kind n xx xi lo hi 3 nrm = .ok m) (hr : Regular kind n 4 lo hi) {c : ℕ → ℝ} (hc : ∀ i < n, -F.BIG < c i) (pe : Bool) {i : ℕ} {x : ℝ}
    (hx : (if pe then xx else xi)[i]? = some (fin x)) (h1 : lo ≤ x) (h2 : x ≤ hi) : ∃ v : ℝ, 0 < v ∧ (m.call c pe)[i]? = some (fin v) := by
  obtain ⟨I, hI, e⟩ := C31_masked_evaluation _ _ _ _ _ _ _ _ _ h c pe
  obtain ⟨-, hn, hg⟩ := hr
  have : ∃ v : ℝ, 0 < v ∧ restrict lo hi (I.eval c) (fin x) = fin v := by
    rcases hk with rfl | rfl
    · exact restrict_logY hn (by simp only at hg; convert hg using 2; push_cast; ring) hI hc h1 h2
    · obtain ⟨l0, h0, hg⟩ := hg
      exact restrict_logXY l0 h0 hn (by convert hg using 2; push_cast; ring) hI hc h1 h2
  obtain ⟨v, hv, ev⟩ := this
  exact ⟨v, hv, by rw [e, List.getElem?_map, hx, Option.map_some, ev]⟩

example : Regular .logY 18 4 0 1 := by
  refine ⟨by norm_num, by norm_num, ?_⟩
  norm_num

theorem regular_mass : Regular .logXY 64 4 3 100 := by
  refine ⟨by norm_num, by norm_num, by norm_num, by norm_num, ?_⟩
  rw [← Real.log_div (by norm_num) (by norm_num)]
  have : (1 : ℝ) ≤ Real.log (100 / 3) := by
    rw [Real.le_log_iff_exp_le (by norm_num)]
    exact Real.exp_one_lt_three.le.trans (by norm_num)
  rw [le_div_iff₀ (by norm_num)]
  norm_num at this ⊢; linarith

/-- the coefficients are all zero -/
example : ∃ I, Interp.make .logXY 64 3 100 4 true = .ok I ∧ (I.evalD (coefVars 64) 30).Sound 0 fun t => (I.eval (ofFin t) 30).toReal := by
  obtain ⟨I, hI⟩ := Interp.make_exists .logXY 64 3 100 4 true (by norm_num) (by norm_num)
  refine ⟨I, hI, C128_spline hI regular_mass 0 ?_ 30 ⟨by norm_num, by norm_num⟩⟩
  unfold Admissible
  rw [(Interp.make_kind hI).1]
  intro i hi
  simp [ofFin, F.BIG]; norm_num

/-- a mass of 200 solar masses -/
example : ∃ I, Interp.make .logXY 64 3 100 4 true = .ok I ∧ I.eval (ofFin (0 : Fin 64 → ℝ)) 200 = fin 0 ∧
    (I.evalD (coefVars 64) 200).vjp (fun _ => fin 0) (fun _ => fin 1) 5 = nan := by
  obtain ⟨I, hI⟩ := Interp.make_exists .logXY 64 3 100 4 true (by norm_num) (by norm_num)
  have := C128_outside_fails (.inr rfl) hI regular_mass 0 (by
    unfold Admissible
    rw [(Interp.make_kind hI).1]
    intro i hi
    simp [ofFin, F.BIG]; norm_num) 200 (by norm_num) (by norm_num) 1 5
  exact ⟨I, hI, this.1.self_of_nhds, this.2⟩

/-- two redshifts -/
def exZ : Arr ℝ := ⟨2, fun i => if i = 0 then 1/10 else 1⟩
/-- a data set of two samples -/
def exData : PyDict (Arr ℝ) := [("redshift", exZ), ("prior", ⟨2, fun _ => 1⟩)]
/-- all 64 mass coefficients are parameter 0, the slope is parameter 1, all others are 0 -/
def exCoefs : SplineCoefs (CoefEntry (Fin 2)) :=
  ⟨List.replicate 64 (.par 0), List.replicate 18 (.num 0), List.replicate 18 (.num 0), List.replicate 18 (.num 0), List.replicate 18 (.num 0),
    List.replicate 18 (.num 0), List.replicate 20 (.num 0), .par 1⟩

theorem exGood : GoodData exData exZ exZ ⟨2, fun _ => 1⟩ :=
  ⟨rfl, rfl, fun i _ => by simp only [exZ]; split_ifs <;> norm_num, fun i _ => by simp only [exZ]; split_ifs <;> norm_num, fun _ _ => one_pos⟩

theorem exCoefs_zero {β : Type} (l : List (CoefEntry (Fin 2))) (h : ∀ e ∈ l, e.val (0 : Fin 2 → ℝ) = 0) (i : ℕ) : coefFn (l.map (CoefEntry.val 0)) i = 0 := by
  unfold coefFn
  by_cases hi : i < l.length
  · rw [List.getD_eq_getElem _ _ (by simpa using hi), List.getElem_map]
    exact h _ (List.getElem_mem hi)
  · rw [List.getD_eq_default _ _ (by simpa using hi)]

theorem exNoUnderflow (n : Fin 6 → ℕ) : (exCoefs.at 0).NoUnderflow n := by
  intro j i _
  have hB : -F.BIG < 0 := by simp [F.BIG]; norm_num
  have : coefFn (![(exCoefs.at 0).mass, (exCoefs.at 0).q, (exCoefs.at 0).a1, (exCoefs.at 0).a2, (exCoefs.at 0).t1, (exCoefs.at 0).t2] j) i = 0 := by
    fin_cases j <;> refine exCoefs_zero (β := Unit) _ (fun e he => ?_) i <;> rw [List.eq_of_mem_replicate he] <;> rfl
  rw [this]
  exact hB

/-- `C128_bspline` applied to one event of two samples at 30 solar masses, and two such injections, with the example's numbers of coefficients -/
example : ∃ mass mag tilt zm P Q, ∃ g : Fin 2 → ℝ, primaryRatio 64 18 [fin 30, fin 30] [fin 30, fin 30] [fin (1/2), fin (1/2)] [fin (1/2), fin (1/2)] 100 3 3 = .ok mass ∧
    exCoefs.weightsD mass mag tilt zm true exData = .ok P ∧ exCoefs.weightsD mass mag tilt zm false exData = .ok Q ∧
    (hyperD { min_neff_cut := false } (fun (e : Fin 1) (i : Fin 2) => P.getD (e * 2 + i) (.const 0)) (fun (i : Fin 2) => Q.getD i (.const 0)) 4 1).vjp
      (fun _ => fin 0) (fun _ => 1) = fun a => fin (g a) := by
  have r1 := regular_mass
  have r2 : Regular .logY 18 4 (3 / 100) 1 := ⟨by norm_num, by norm_num, by norm_num⟩
  have r3 : Regular .logY 18 4 0 1 := ⟨by norm_num, by norm_num, by norm_num⟩
  have r4 : Regular .logY 18 4 (-1) 1 := ⟨by norm_num, by norm_num, by norm_num⟩
  set l30 : List F := [fin 30, fin 30]
  set lh : List F := [fin (1/2), fin (1/2)]
  obtain ⟨b1, hb1⟩ := Base1D.make_exists .logXY 64 l30 l30 3 100 3 true (by norm_num)
  obtain ⟨b2, hb2⟩ := Base1D.make_exists .logY 18 lh lh (3 / 100) 1 3 true (by norm_num)
  obtain ⟨b3, hb3⟩ := Base1D.make_exists .logY 18 lh lh 0 1 3 true (by norm_num)
  obtain ⟨b4, hb4⟩ := Base1D.make_exists .logY 18 lh lh (-1) 1 3 true (by norm_num)
  have hzmin : (ZModel.mk (fun z => z ^ 2) exZ exZ).zmin = 1/10 := by
    simp only [ZModel.zmin, arrMin, exZ, List.range_succ, List.range_zero]
    norm_num
  have hzmax : (ZModel.mk (fun z => z ^ 2) exZ exZ).zmax = 1 := by
    simp only [ZModel.zmax, arrMax, exZ, List.range_succ, List.range_zero]
    norm_num
  obtain ⟨I, hI⟩ := Interp.make_exists .logX 20 (ZModel.mk (fun z => z ^ 2) exZ exZ).zmin (ZModel.mk (fun z => z ^ 2) exZ exZ).zmax 4 false (by norm_num) (by norm_num)
  have h1 : primaryRatio 64 18 l30 l30 lh lh 100 3 3 = .ok ⟨b1, b2⟩ := by simp only [primaryRatio, massModel, ratioModel, hb1, hb2]; rfl
  have h2 : independentSpinMagnitudes 18 18 lh lh lh lh = .ok ⟨b3, b3⟩ := by simp only [independentSpinMagnitudes, spinMagnitudeModel, hb3]; rfl
  have h3 : independentSpinTilts 18 18 lh lh lh lh = .ok ⟨b4, b4⟩ := by simp only [independentSpinTilts, spinTiltModel, hb4]; rfl
  have h4 : PLSpline.make 20 (fun z => z ^ 2) exZ exZ = .ok ⟨⟨fun z => z ^ 2, exZ, exZ⟩, I⟩ := by rw [PLSpline.make]; simp only [hI]; rfl
  have B := BuiltSplines.of_example h1 h2 h3 h4 r1 r2 r3 r4 (fun z hz => by positivity) (by rw [hzmin]; norm_num) (by rw [hzmin, hzmax]; norm_num)
  obtain ⟨P, Q, W, V, hP, hQ, hW, hV, h⟩ := C128_bspline (E := 1) (N := 2) (M := 2) B exCoefs 0 (exNoUnderflow _) exGood exGood
    { min_neff_cut := false } rfl 4 1 1 (some 1) 1 (by simp [Flags.ok]) (by simp) one_pos le_rfl (by norm_num)
  have hpos : ∀ (pe : Bool) (w : List F), (exCoefs.at 0).weights ⟨b1, b2⟩ ⟨b3, b3⟩ ⟨b4, b4⟩ ⟨⟨fun z => z ^ 2, exZ, exZ⟩, I⟩ pe exData = .ok w → 0 < (w.getD 0 0).toReal := by
    intro pe w hw
    obtain ⟨w', hw', e⟩ := C97_bspline_weights_partial ⟨b1, b2⟩ ⟨b3, b3⟩ ⟨b4, b4⟩ ⟨⟨fun z => z ^ 2, exZ, exZ⟩, I⟩ (exCoefs.at 0).mass (exCoefs.at 0).q (exCoefs.at 0).a1
      (exCoefs.at 0).a2 (exCoefs.at 0).t1 (exCoefs.at 0).t2 (exCoefs.at 0).z (exCoefs.at 0).lamb pe exData exZ ⟨2, fun _ => 1⟩ rfl rfl
    obtain rfl : w = w' := by
      have := hw.symm.trans hw'
      simpa using this
    have hl : ∀ l : List F, (if pe then l else l) = l := fun l => by cases pe <;> rfl
    have hn := exNoUnderflow ![64, 18, 18, 18, 18, 18]
    obtain ⟨v1, p1, e1⟩ := logcall_pos (.inr rfl) hb1 r1 (hn 0) pe (i := 0) (x := 30) (by rw [hl]; rfl) (by norm_num) (by norm_num)
    obtain ⟨v2, p2, e2⟩ := logcall_pos (.inl rfl) hb2 r2 (hn 1) pe (i := 0) (x := 1/2) (by rw [hl]; rfl) (by norm_num) (by norm_num)
    obtain ⟨v3, p3, e3⟩ := logcall_pos (.inl rfl) hb3 r3 (hn 2) pe (i := 0) (x := 1/2) (by rw [hl]; rfl) (by norm_num) (by norm_num)
    obtain ⟨v4, p4, e4⟩ := logcall_pos (.inl rfl) hb3 r3 (hn 3) pe (i := 0) (x := 1/2) (by rw [hl]; rfl) (by norm_num) (by norm_num)
    obtain ⟨v5, p5, e5⟩ := logcall_pos (.inl rfl) hb4 r4 (hn 4) pe (i := 0) (x := 1/2) (by rw [hl]; rfl) (by norm_num) (by norm_num)
    obtain ⟨v6, p6, e6⟩ := logcall_pos (.inl rfl) hb4 r4 (hn 5) pe (i := 0) (x := 1/2) (by rw [hl]; rfl) (by norm_num) (by norm_num)
    have e := e 0 _ _ _ _ _ _ e1 e2 e3 e4 e5 e6 (by simp [exZ]) (by simp)
    obtain ⟨s, -, d, hd, hz⟩ := C35_powerlaw_spline_partial 20 _ exZ exZ _ h4 (by rw [hzmin]; norm_num) (by rw [hzmin, hzmax]; norm_num)
      (fun x hx _ => by rw [hzmin] at hx; positivity) (exCoefs.at 0).lamb (fun k => (exCoefs.at 0).z.getD k 0)
    have hz := (hz pe 0 (by cases pe <;> simp [exZ])).1 (by rw [hzmax]; cases pe <;> simp [exZ]; all_goals norm_num)
    have hz' : PLSpline.call ⟨⟨fun z => z ^ 2, exZ, exZ⟩, I⟩ pe exZ (exCoefs.at 0).lamb (fun k => (exCoefs.at 0).z.getD k 0) 0 = fin (d (1/10)) := by
      cases pe <;> simpa [exZ] using hz
    obtain ⟨κ, hκ, hsh⟩ := hd.shape
    have hdpos : 0 < d (1/10) := by
      rw [hsh]
      exact mul_pos hκ (mul_pos (mul_pos (by norm_num) (Real.rpow_pos_of_pos (by norm_num) _)) (Real.exp_pos _))
    rw [List.getD_eq_getElem?_getD, e, hz']
    simp only [mul_fin, Option.getD_some, div_fin one_ne_zero, toReal_fin, div_one]
    positivity
  obtain ⟨L, g, -, hg, -⟩ := h (fun e => ⟨0, by fin_cases e; exact hpos true _ (hW 0)⟩) ⟨0, hpos false _ (hV 0)⟩ (by simp) (by simp) (by simp)
  exact ⟨_, _, _, _, P, Q, g, h1, hP, hQ, hg⟩

/-- `C128_model` at a sample inside the range, one outside and a NaN -/
example (i : ℕ) : ∃ m, spinMagnitudeModel 18 [fin (1/2), fin (3/2), nan] [fin (1/5)] = .ok m ∧
    ((m.callD (coefVars 18) true).getD i (.const 0)).Sound 0 fun t => ((m.call (ofFin t) true).getD i 0).toReal := by
  obtain ⟨m, hm⟩ := Base1D.make_exists .logY 18 [fin (1/2), fin (3/2), nan] [fin (1/5)] 0 1 3 true (by norm_num)
  refine ⟨m, hm, C128_model hm ⟨by norm_num, by norm_num, by norm_num⟩ 0 ?_ true i⟩
  unfold Admissible
  rw [(Interp.make_kind (Base1D.make_ok hm).1).1]
  intro i hi
  simp [ofFin, F.BIG]; norm_num

/-- `C128_redshift` at slope 2 -/
example : ∃ m, PLSpline.make 20 (fun z => z ^ 2) exZ exZ = .ok m ∧
    (m.callD true exZ (.var none) (fun j => if h : j < 20 then .var (some ⟨j, h⟩) else .const 0) 0).Sound (fun a => if a = none then 2 else 0)
      fun t => (m.call true exZ (t none) (ofFin fun j => t (some j)) 0).toReal := by
  have hzmin : (ZModel.mk (fun z => z ^ 2) exZ exZ).zmin = 1/10 := by
    simp only [ZModel.zmin, arrMin, exZ, List.range_succ, List.range_zero]
    norm_num
  have hzmax : (ZModel.mk (fun z => z ^ 2) exZ exZ).zmax = 1 := by
    simp only [ZModel.zmax, arrMax, exZ, List.range_succ, List.range_zero]
    norm_num
  obtain ⟨I, hI⟩ := Interp.make_exists .logX 20 (ZModel.mk (fun z => z ^ 2) exZ exZ).zmin (ZModel.mk (fun z => z ^ 2) exZ exZ).zmax 4 false (by norm_num) (by norm_num)
  have h4 : PLSpline.make 20 (fun z => z ^ 2) exZ exZ = .ok ⟨⟨fun z => z ^ 2, exZ, exZ⟩, I⟩ := by rw [PLSpline.make]; simp only [hI]; rfl
  exact ⟨_, h4, C128_redshift h4 (fun z hz => by positivity) (by rw [hzmin]; norm_num) (by rw [hzmin, hzmax]; norm_num) _ true exZ 0
    (by simp [exZ]) (by simp [exZ])⟩

end GW
end
