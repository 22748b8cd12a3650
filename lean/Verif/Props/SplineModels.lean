import Verif.Model.SplineModels
import Verif.Props.SplineProject
import Mathlib.MeasureTheory.Integral.IntegralEqImproper

/-! # Properties C31–C34: one-dimensional and separable spline population models -/

open Finset
noncomputable section
open Classical
namespace GW
open F

/-! ### specification -/

/-- Specification of a range-restricted density: `f` at a finite sample of `[lo,hi]`, exactly 0 at every other sample
(out of range, infinite or NaN). -/
def restrict (lo hi : ℝ) (f : ℝ → F) : F → F
  | fin x => if lo ≤ x ∧ x ≤ hi then f x else 0
  | _ => 0

/-! ### gather / scatter -/

theorem scatter_gather (p : F → Bool) (g : F → F) (xs : List F) :
    scatter (xs.map p) ((gather (xs.map p) xs).map g) = xs.map fun x => if p x then g x else 0 := by
  induction xs with
  | nil => rfl
  | cons x xs ih =>
    cases h : p x
    · simp only [List.map_cons, h, gather, scatter, ih]; simp
    · simp only [List.map_cons, h, gather, scatter, ih]; simp

theorem scatter_design (I : Interp) (lo hi : ℝ) (xs : List F) (c : ℕ → ℝ) :
    scatter (validMask lo hi xs) ((design I (validMask lo hi xs) xs).map fun b => I.project b c)
      = xs.map (restrict lo hi (I.eval c)) := by
  have h1 : (design I (validMask lo hi xs) xs).map (fun b => I.project b c)
      = (gather (validMask lo hi xs) xs).map (fun x => I.eval c x.toReal) := by
    rw [design, List.map_map]; rfl
  rw [h1, validMask, scatter_gather]
  refine List.map_congr_left fun x _ => ?_
  cases x with
  | fin x =>
    simp only [restrict, decide_eq_true_eq, F.ge_fin, F.le_fin, F.toReal]
  | pinf => simp [restrict]
  | ninf => simp [restrict, F.ge]
  | nan => simp [restrict, F.ge]

theorem Base1D.make_ok {kind : Kind} {n : ℕ} {xx xi : List F} {lo hi : ℝ} {d : ℕ} {nrm : Bool} {m : Base1D}
    (h : Base1D.make kind n xx xi lo hi d nrm = .ok m) :
    Interp.make kind n lo hi (d + 1) nrm = .ok m.interp ∧
    m.validXX = validMask lo hi xx ∧ m.validInj = validMask lo hi xi ∧
    m.peDesign = design m.interp (validMask lo hi xx) xx ∧ m.injDesign = design m.interp (validMask lo hi xi) xi := by
  unfold Base1D.make at h
  cases hI : Interp.make kind n lo hi (d + 1) nrm with
  | error e => rw [hI] at h; simp [bind, Except.bind] at h
  | ok I =>
    rw [hI] at h
    simp only [bind, Except.bind, pure, Except.pure, Except.ok.injEq] at h
    subst h
    exact ⟨rfl, rfl, rfl, rfl, rfl⟩

/-- **C31.** A one-dimensional spline model, evaluated on the parameter-estimation samples (`pe = true`) or on the
injection samples (`pe = false`), returns the array obtained by applying, entry by entry and in the original order,
"spline value at the sample if it lies in `[lo,hi]`, else 0" to exactly that sample array.  In particular the
result has the shape of the sample array, whatever the mask pattern. -/
theorem C31_masked_evaluation (kind : Kind) (n : ℕ) (xx xxInj : List F) (lo hi : ℝ) (degree : ℕ) (nrm : Bool)
    (m : Base1D) (h : Base1D.make kind n xx xxInj lo hi degree nrm = .ok m) (c : ℕ → ℝ) (pe : Bool) :
    ∃ I, Interp.make kind n lo hi (degree + 1) nrm = .ok I ∧
      m.call c pe = (if pe then xx else xxInj).map (restrict lo hi (I.eval c)) := by
  obtain ⟨hI, h1, h2, h3, h4⟩ := Base1D.make_ok h
  refine ⟨m.interp, hI, ?_⟩
  cases pe
  · simp only [Base1D.call, Base1D.injPdf, h2, h4, Bool.false_eq_true, if_false, scatter_design]
  · simp only [Base1D.call, Base1D.pePdf, h1, h3, if_true, scatter_design]

/-- **C31**, entrywise form: same length; entry `i` depends on sample `i` only. -/
theorem C31_entrywise (kind : Kind) (n : ℕ) (xx xxInj : List F) (lo hi : ℝ) (degree : ℕ) (nrm : Bool)
    (m : Base1D) (h : Base1D.make kind n xx xxInj lo hi degree nrm = .ok m) (c : ℕ → ℝ) (pe : Bool) :
    ∃ I, Interp.make kind n lo hi (degree + 1) nrm = .ok I ∧
      (m.call c pe).length = (if pe then xx else xxInj).length ∧
      ∀ (i : ℕ) (x : F), (if pe then xx else xxInj)[i]? = some x →
        (∀ y : ℝ, x = fin y → lo ≤ y → y ≤ hi → (m.call c pe)[i]? = some (I.eval c y)) ∧
        ((∀ y : ℝ, x = fin y → y < lo ∨ hi < y) → (m.call c pe)[i]? = some 0) := by
  obtain ⟨I, hI, e⟩ := C31_masked_evaluation kind n xx xxInj lo hi degree nrm m h c pe
  refine ⟨I, hI, by rw [e, List.length_map], fun i x hx => ⟨fun y hy h1 h2 => ?_, fun hout => ?_⟩⟩
  · rw [e, List.getElem?_map, hx, hy, Option.map_some, restrict, if_pos ⟨h1, h2⟩]
  · rw [e, List.getElem?_map, hx, Option.map_some]
    cases x with
    | fin y =>
      rw [restrict, if_neg]
      rintro ⟨h1, h2⟩
      rcases hout y rfl with h | h <;> linarith
    | _ => rfl

/-! ### what the interpolator computes -/

theorem einsumF_fin (N : ℕ) (b c : ℕ → ℝ) : einsumF N (fun i => fin (b i)) (fun i => fin (c i)) = fin (einsum N b c) := by
  simp [einsumF, einsum]

theorem Interp.norm_false {I : Interp} (h : I.normalize = false) (c : ℕ → ℝ) : I.norm c = fin 1 := by
  simp [Interp.norm, h]

/-- **C31**, what "the spline value" is: the interpolator built by the model evaluates the spline object of the chosen
class (the splines of C01–C10): for `BSpline` and `LogXBSpline` whenever the normalising integral is not 0 (always,
without `normalize`), for the log-Y classes unconditionally. -/
theorem C31_spline_value (kind : Kind) (n : ℕ) (lo hi : ℝ) (k : ℕ) (nrm : Bool) (I : Interp)
    (h : Interp.make kind n lo hi k nrm = .ok I) (c : ℕ → ℝ) (x : ℝ) :
    match kind with
    | .b => ∃ s, Spline.init n none none lo hi k = .ok s ∧
        ((nrm = true → trapz s.grid.len (fun j => s.bEval false c (s.grid.get j)) s.grid.get ≠ 0) →
          I.eval c x = fin (s.bEval nrm c x))
    | .logX => ∃ s, logXInit n none none lo hi k = .ok s ∧
        ((nrm = true → trapz s.logXGrid.len (fun j => s.logXEval false c (s.logXGrid.get j)) s.logXGrid.get ≠ 0) →
          I.eval c x = fin (s.logXEval nrm c x))
    | .logY => ∃ s, Spline.init n none none lo hi k = .ok s ∧ I.eval c x = s.logYEval nrm (fun i => fin (c i)) x
    | .logXY => ∃ s, logXInit n none none lo hi k = .ok s ∧ I.eval c x = s.logXYEval nrm (fun i => fin (c i)) x := by
  cases kind with
  | b =>
    cases hs : Spline.init n none none lo hi k with
    | error e => simp [Interp.make, hs, bind, Except.bind] at h
    | ok s =>
      simp only [Interp.make, hs, bind, Except.bind, pure, Except.pure, Except.ok.injEq] at h
      subst h
      refine ⟨s, rfl, fun hne => ?_⟩
      cases nrm
      · simp [Interp.eval, Interp.project, Interp.rawProject, Interp.bases, Interp.norm, einsumF_fin, Spline.bEval,
          bProject, bNorm]
      · have hne := hne rfl
        simp only [Interp.eval, Interp.project, Interp.rawProject, Interp.bases, Interp.norm, einsumF_fin, Spline.bEval,
          bProject, bNorm, Interp.grid, if_true, trapzF_fin, Bool.false_eq_true, if_false, mul_one] at hne ⊢
        rw [F.one_def, F.div_fin hne, F.mul_fin]
  | logX =>
    cases hs : logXInit n none none lo hi k with
    | error e => simp [Interp.make, hs, bind, Except.bind] at h
    | ok s =>
      simp only [Interp.make, hs, bind, Except.bind, pure, Except.pure, Except.ok.injEq] at h
      subst h
      refine ⟨s, rfl, fun hne => ?_⟩
      cases nrm
      · simp [Interp.eval, Interp.project, Interp.rawProject, Interp.bases, Interp.norm, einsumF_fin, Spline.logXEval,
          bProject, bNorm]
      · have hne := hne rfl
        simp only [Interp.eval, Interp.project, Interp.rawProject, Interp.bases, Interp.norm, einsumF_fin, Spline.logXEval,
          bProject, bNorm, Interp.grid, if_true, trapzF_fin, Bool.false_eq_true, if_false, mul_one] at hne ⊢
        rw [F.one_def, F.div_fin hne, F.mul_fin]
  | logY =>
    cases hs : Spline.init n none none lo hi k with
    | error e => simp [Interp.make, hs, bind, Except.bind] at h
    | ok s =>
      simp only [Interp.make, hs, bind, Except.bind, pure, Except.pure, Except.ok.injEq] at h
      subst h
      exact ⟨s, rfl, rfl⟩
  | logXY =>
    cases hs : logXInit n none none lo hi k with
    | error e => simp [Interp.make, hs, bind, Except.bind] at h
    | ok s =>
      simp only [Interp.make, hs, bind, Except.bind, pure, Except.pure, Except.ok.injEq] at h
      subst h
      exact ⟨s, rfl, rfl⟩

theorem Interp.make_exists (kind : Kind) (n : ℕ) (lo hi : ℝ) (k : ℕ) (nrm : Bool) (hk : 1 ≤ k) (hn : k ≤ n) :
    ∃ I, Interp.make kind n lo hi k nrm = .ok I := by
  obtain ⟨s, hs, -⟩ := C16_default_knots n k lo hi hk hn
  obtain ⟨s', hs', -⟩ := C16_default_knots n k (Real.log lo) (Real.log hi) hk hn
  have hs'' : logXInit n none none lo hi k = .ok s' := hs'
  cases kind
  · exact ⟨⟨.b, s, nrm⟩, by simp [Interp.make, hs, bind, Except.bind, pure, Except.pure]⟩
  · exact ⟨⟨.logX, s', nrm⟩, by simp [Interp.make, hs'', bind, Except.bind, pure, Except.pure]⟩
  · exact ⟨⟨.logY, s, nrm⟩, by simp [Interp.make, hs, bind, Except.bind, pure, Except.pure]⟩
  · exact ⟨⟨.logXY, s', nrm⟩, by simp [Interp.make, hs'', bind, Except.bind, pure, Except.pure]⟩

theorem Base1D.make_exists (kind : Kind) (n : ℕ) (xx xi : List F) (lo hi : ℝ) (d : ℕ) (nrm : Bool) (hn : d + 1 ≤ n) :
    ∃ m, Base1D.make kind n xx xi lo hi d nrm = .ok m := by
  obtain ⟨I, hI⟩ := Interp.make_exists kind n lo hi (d + 1) nrm (by omega) hn
  exact ⟨_, by rw [Base1D.make, hI]; rfl⟩

/-- a concrete model: three PE samples, one out of range and one NaN -/
example : ∃ m, spinMagnitudeModel 10 [fin 0.5, fin 1.5, nan] [fin 0.1] = .ok m ∧
    ∃ I, Interp.make .logY 10 0 1 4 true = .ok I ∧ m.call (fun _ => 0) true = [I.eval (fun _ => 0) 0.5, 0, 0] := by
  obtain ⟨m, hm⟩ := Base1D.make_exists .logY 10 [fin 0.5, fin 1.5, nan] [fin 0.1] 0 1 3 true (by norm_num)
  refine ⟨m, hm, ?_⟩
  obtain ⟨I, hI, e⟩ := C31_masked_evaluation .logY 10 _ _ 0 1 3 true m hm (fun _ => 0) true
  refine ⟨I, hI, ?_⟩
  rw [e]
  simp only [if_true, List.map_cons, List.map_nil, restrict]
  norm_num

/-- What "the spline of class `kind`, order `k`, on `[lo,hi]`, applied to the samples" means for a returned array:
entry by entry the spline value inside the range and 0 outside. -/
def EvaluatesTo (out : List F) (kind : Kind) (n k : ℕ) (lo hi : ℝ) (nrm : Bool) (c : ℕ → ℝ) (samples : List F) : Prop :=
  ∃ I, Interp.make kind n lo hi k nrm = .ok I ∧ out = samples.map (restrict lo hi (I.eval c))

/-- **C31**, defaults: built with the number of splines and the samples only, every one-dimensional model is the cubic
(order 4) spline of its documented class on the physical range of its parameter: spin magnitudes, precessing spins and
mass ratios on `[0,1]`, cosines of the tilts and effective spins on `[-1,1]`, masses on `[2,100]`. -/
theorem C31_default_ranges (n : ℕ) (x xi : List F) (m : Base1D) (c : ℕ → ℝ) (pe : Bool) :
    (spinMagnitudeModel n x xi = .ok m → EvaluatesTo (m.call c pe) .logY n 4 0 1 true c (if pe then x else xi)) ∧
    (spinTiltModel n x xi = .ok m → EvaluatesTo (m.call c pe) .logY n 4 (-1) 1 true c (if pe then x else xi)) ∧
    (chiEffectiveModel n x xi = .ok m → EvaluatesTo (m.call c pe) .b n 4 (-1) 1 false c (if pe then x else xi)) ∧
    (chiPrecessModel n x xi = .ok m → EvaluatesTo (m.call c pe) .b n 4 0 1 false c (if pe then x else xi)) ∧
    (ratioModel n x xi = .ok m → EvaluatesTo (m.call c pe) .logY n 4 0 1 true c (if pe then x else xi)) ∧
    (massModel n x xi = .ok m → EvaluatesTo (m.call c pe) .logXY n 4 2 100 true c (if pe then x else xi)) ∧
    (symChiEffectiveModel n x xi = .ok m →
      EvaluatesTo (m.call c pe) .b n 4 0 1 false c ((if pe then x else xi).map F.abs)) := by
  refine ⟨fun h => C31_masked_evaluation _ n x xi _ _ 3 _ m h c pe, fun h => C31_masked_evaluation _ n x xi _ _ 3 _ m h c pe,
    fun h => C31_masked_evaluation _ n x xi _ _ 3 _ m h c pe, fun h => C31_masked_evaluation _ n x xi _ _ 3 _ m h c pe,
    fun h => C31_masked_evaluation _ n x xi _ _ 3 _ m h c pe, fun h => C31_masked_evaluation _ n x xi _ _ 3 _ m h c pe,
    fun h => ?_⟩
  obtain ⟨I, hI, e⟩ := C31_masked_evaluation _ n _ _ _ _ 3 _ m h c pe
  refine ⟨I, hI, ?_⟩
  rw [e]
  cases pe <;> rfl

/-- **C31**, defaults of the two-component spin models: the product of the two components' spline values, each masked on
its own physical range; the IID classes use one set of coefficients for both. -/
theorem C31_default_pairs (n n' : ℕ) (x y xi yi : List F) (p : Pair) (c c' : ℕ → ℝ) (pe : Bool) :
    (iidSpinMagnitudes n x y xi yi = .ok p → ∃ u v, p.iidCall c pe = List.zipWith (· * ·) u v ∧
      EvaluatesTo u .logY n 4 0 1 true c (if pe then x else xi) ∧ EvaluatesTo v .logY n 4 0 1 true c (if pe then y else yi)) ∧
    (independentSpinMagnitudes n n' x y xi yi = .ok p → ∃ u v, p.indCall c c' pe = List.zipWith (· * ·) u v ∧
      EvaluatesTo u .logY n 4 0 1 true c (if pe then x else xi) ∧ EvaluatesTo v .logY n' 4 0 1 true c' (if pe then y else yi)) ∧
    (iidSpinTilts n x y xi yi = .ok p → ∃ u v, p.iidCall c pe = List.zipWith (· * ·) u v ∧
      EvaluatesTo u .logY n 4 (-1) 1 true c (if pe then x else xi) ∧ EvaluatesTo v .logY n 4 (-1) 1 true c (if pe then y else yi)) ∧
    (independentSpinTilts n n' x y xi yi = .ok p → ∃ u v, p.indCall c c' pe = List.zipWith (· * ·) u v ∧
      EvaluatesTo u .logY n 4 (-1) 1 true c (if pe then x else xi) ∧ EvaluatesTo v .logY n' 4 (-1) 1 true c' (if pe then y else yi)) ∧
    (effectiveSpinDims n n' x y xi yi = .ok p → ∃ u v, p.indCall c c' pe = List.zipWith (· * ·) u v ∧
      EvaluatesTo u .b n 4 (-1) 1 false c (if pe then x else xi) ∧ EvaluatesTo v .b n' 4 0 1 false c' (if pe then y else yi)) := by
  have key : ∀ {a b : Except InitErr Base1D}, (do let p ← a; let s ← b; pure (⟨p, s⟩ : Pair)) = .ok p →
      a = .ok p.m1 ∧ b = .ok p.m2 := by
    intro a b h
    cases a with
    | error e => simp [bind, Except.bind] at h
    | ok a =>
      cases b with
      | error e => simp [bind, Except.bind] at h
      | ok b =>
        simp only [bind, Except.bind, pure, Except.pure, Except.ok.injEq] at h
        subst h
        exact ⟨rfl, rfl⟩
  refine ⟨fun h => ?_, fun h => ?_, fun h => ?_, fun h => ?_, fun h => ?_⟩
  · obtain ⟨h1, h2⟩ := key h
    exact ⟨_, _, rfl, (C31_default_ranges n x xi p.m1 c pe).1 h1, (C31_default_ranges n y yi p.m2 c pe).1 h2⟩
  · obtain ⟨h1, h2⟩ := key h
    exact ⟨_, _, rfl, (C31_default_ranges n x xi p.m1 c pe).1 h1, (C31_default_ranges n' y yi p.m2 c' pe).1 h2⟩
  · obtain ⟨h1, h2⟩ := key h
    exact ⟨_, _, rfl, (C31_default_ranges n x xi p.m1 c pe).2.1 h1, (C31_default_ranges n y yi p.m2 c pe).2.1 h2⟩
  · obtain ⟨h1, h2⟩ := key h
    exact ⟨_, _, rfl, (C31_default_ranges n x xi p.m1 c pe).2.1 h1, (C31_default_ranges n' y yi p.m2 c' pe).2.1 h2⟩
  · obtain ⟨h1, h2⟩ := key h
    exact ⟨_, _, rfl, (C31_default_ranges n x xi p.m1 c pe).2.2.1 h1,
      (C31_default_ranges n' y yi p.m2 c' pe).2.2.2.1 h2⟩

/-- a tilt model on default arguments exists, so the theorem above says something of it: the sample `-1/2` is inside -/
example : ∃ m, spinTiltModel 10 [fin (-0.5), fin (-1.5)] [] = .ok m ∧
    EvaluatesTo (m.call (fun _ => 0) true) .logY 10 4 (-1) 1 true (fun _ => 0) [fin (-0.5), fin (-1.5)] := by
  obtain ⟨m, hm⟩ := Base1D.make_exists .logY 10 [fin (-0.5), fin (-1.5)] [] (-1) 1 3 true (by norm_num)
  exact ⟨m, hm, (C31_default_ranges 10 _ _ m _ true).2.1 hm⟩

/-! ### C32 -/

theorem abs_neg (x : F) : F.abs (-x) = F.abs x := by
  cases x <;> simp [F.abs]

/-- **C32.** The symmetric effective-spin model: negating every sample leaves the returned array unchanged. -/
theorem C32_even (kind : Kind) (n : ℕ) (x xInj : List F) (lo hi : ℝ) (degree : ℕ) (nrm : Bool) (m m' : Base1D)
    (h : symChiEffectiveModel n x xInj kind lo hi degree nrm = .ok m)
    (h' : symChiEffectiveModel n (x.map (-·)) (xInj.map (-·)) kind lo hi degree nrm = .ok m') (c : ℕ → ℝ) (pe : Bool) :
    symCall m' c pe = symCall m c pe := by
  have e : ∀ l : List F, (l.map (-·)).map F.abs = l.map F.abs := by
    intro l; rw [List.map_map]; exact List.map_congr_left fun y _ => abs_neg y
  rw [symChiEffectiveModel, e, e] at h'
  rw [symChiEffectiveModel, h', Except.ok.injEq] at h
  rw [h]

/-- **C32.** Entry `i` is one half of the spline value at `|x_i|` when `|x_i|` lies in the range, else 0. -/
theorem C32_half_density (kind : Kind) (n : ℕ) (x xInj : List F) (lo hi : ℝ) (degree : ℕ) (nrm : Bool) (m : Base1D)
    (h : symChiEffectiveModel n x xInj kind lo hi degree nrm = .ok m) (c : ℕ → ℝ) (pe : Bool) :
    ∃ I, Interp.make kind n lo hi (degree + 1) nrm = .ok I ∧
      (symCall m c pe).length = (if pe then x else xInj).length ∧
      ∀ (i : ℕ) (y : ℝ), (if pe then x else xInj)[i]? = some (fin y) →
        (symCall m c pe)[i]? = some (if lo ≤ |y| ∧ |y| ≤ hi then fin (1 / 2) * I.eval c |y| else 0) := by
  obtain ⟨I, hI, e⟩ := C31_masked_evaluation kind n _ _ lo hi degree nrm m h c pe
  have e2 : symCall m c pe = (m.call c pe).map (fun v => fin 0.5 * v) := by
    cases pe <;> rfl
  refine ⟨I, hI, ?_, fun i y hy => ?_⟩
  · rw [e2, e]; cases pe <;> simp
  · rw [e2, e, show (if pe = true then List.map F.abs x else List.map F.abs xInj)
        = (if pe then x else xInj).map F.abs by cases pe <;> rfl, List.map_map, List.map_map, List.getElem?_map, hy]
    simp only [Option.map_some, Function.comp, F.abs, restrict]
    split_ifs
    · norm_num
    · simp

/-- **C32.** The factor one half is the right one: over the whole real line the symmetric density (half the spline at
`|x|`, zero when `|x|` is out of range) has exactly the mass of the spline over `[0, hi]`. -/
theorem C32_mass (hi : ℝ) (hh : 0 ≤ hi) (f : ℝ → ℝ) :
    ∫ x : ℝ, (if 0 ≤ |x| ∧ |x| ≤ hi then fin (1 / 2) * fin (f |x|) else 0 : F).toReal = ∫ x in (0 : ℝ)..hi, f x := by
  have e : ∀ x : ℝ, (if 0 ≤ |x| ∧ |x| ≤ hi then fin (1 / 2) * fin (f |x|) else 0 : F).toReal
      = (fun t : ℝ => if t ≤ hi then 1 / 2 * f t else 0) |x| := by
    intro x
    simp only [abs_nonneg, true_and]
    split_ifs <;> simp [F.toReal]
  simp only [e]
  rw [integral_comp_abs (f := fun t : ℝ => if t ≤ hi then 1 / 2 * f t else 0), intervalIntegral.integral_of_le hh]
  have e2 : ∀ t : ℝ, (if t ≤ hi then 1 / 2 * f t else 0) = (Set.Iic hi).indicator (fun t => 1 / 2 * f t) t := by
    intro t; simp [Set.indicator]
  simp only [e2]
  rw [MeasureTheory.setIntegral_indicator measurableSet_Iic, Set.Ioi_inter_Iic, MeasureTheory.integral_const_mul]
  ring

/-! ### C33 -/

theorem mulArr_map {α : Type} (f g : α → F) (xs : List α) : mulArr (xs.map f) (xs.map g) = xs.map fun x => f x * g x := by
  simp [mulArr, List.zipWith_map, List.zipWith_self]

/-- Specification of a separable density on paired sample arrays: entry `i` is `f1 x_i * f2 y_i`. -/
def productOn (f1 f2 : F → F) (xs ys : List F) : List F := (xs.zip ys).map fun p => f1 p.1 * f2 p.2

theorem mulArr_productOn (f1 f2 : F → F) (xs ys : List F) : mulArr (xs.map f1) (ys.map f2) = productOn f1 f2 xs ys := by
  rw [mulArr, productOn, List.zipWith_map, List.zip, List.map_zipWith]

theorem productOn_length (f1 f2 : F → F) (xs ys : List F) (h : xs.length = ys.length) :
    (productOn f1 f2 xs ys).length = xs.length := by simp [productOn, h]

theorem productOn_getElem? (f1 f2 : F → F) (xs ys : List F) (i : ℕ) (x y : F) (hx : xs[i]? = some x)
    (hy : ys[i]? = some y) : (productOn f1 f2 xs ys)[i]? = some (f1 x * f2 y) := by
  rw [productOn, List.getElem?_map, (List.getElem?_zip_eq_some (z := (x, y))).2 ⟨hx, hy⟩]; rfl

private theorem pair_ok {a b : Except InitErr Base1D} {p : Pair}
    (h : (do let x ← a; let y ← b; pure (Pair.mk x y) : Except InitErr Pair) = .ok p) :
    a = .ok p.m1 ∧ b = .ok p.m2 := by
  cases a with
  | error e => simp [bind, Except.bind] at h
  | ok x =>
    cases b with
    | error e => simp [bind, Except.bind] at h
    | ok y =>
      simp only [bind, Except.bind, pure, Except.pure, Except.ok.injEq] at h
      subst h; exact ⟨rfl, rfl⟩

private theorem indCall_eq {p : Pair} {k1 k2 : Kind} {n1 n2 : ℕ} {x1 x2 x1i x2i : List F} {lo1 hi1 lo2 hi2 : ℝ}
    {d1 d2 : ℕ} {r1 r2 : Bool} (h1 : Base1D.make k1 n1 x1 x1i lo1 hi1 d1 r1 = .ok p.m1)
    (h2 : Base1D.make k2 n2 x2 x2i lo2 hi2 d2 r2 = .ok p.m2) (c1 c2 : ℕ → ℝ) (pe : Bool) :
    ∃ I1 I2, Interp.make k1 n1 lo1 hi1 (d1 + 1) r1 = .ok I1 ∧ Interp.make k2 n2 lo2 hi2 (d2 + 1) r2 = .ok I2 ∧
      p.indCall c1 c2 pe = productOn (restrict lo1 hi1 (I1.eval c1)) (restrict lo2 hi2 (I2.eval c2))
        (if pe then x1 else x1i) (if pe then x2 else x2i) := by
  obtain ⟨I1, hI1, e1⟩ := C31_masked_evaluation _ _ _ _ _ _ _ _ _ h1 c1 pe
  obtain ⟨I2, hI2, e2⟩ := C31_masked_evaluation _ _ _ _ _ _ _ _ _ h2 c2 pe
  exact ⟨I1, I2, hI1, hI2, by rw [Pair.indCall, e1, e2, mulArr_productOn]⟩

/-- **C33**, IID spin magnitudes: one spline with one coefficient vector, evaluated at both components. -/
theorem C33_iid_spin_magnitudes (n : ℕ) (a1 a2 a1i a2i : List F) (kind : Kind) (lo hi : ℝ) (degree : ℕ) (nrm : Bool)
    (p : Pair) (h : iidSpinMagnitudes n a1 a2 a1i a2i kind lo hi degree nrm = .ok p) (c : ℕ → ℝ) (pe : Bool) :
    ∃ I, Interp.make kind n lo hi (degree + 1) nrm = .ok I ∧
      p.iidCall c pe = productOn (restrict lo hi (I.eval c)) (restrict lo hi (I.eval c))
        (if pe then a1 else a1i) (if pe then a2 else a2i) := by
  obtain ⟨h1, h2⟩ := pair_ok h
  obtain ⟨I1, I2, hI1, hI2, e⟩ := indCall_eq h1 h2 c c pe
  rw [hI1, Except.ok.injEq] at hI2
  subst hI2
  exact ⟨I1, hI1, e⟩

/-- **C33**, independent spin magnitudes. -/
theorem C33_independent_spin_magnitudes (n1 n2 : ℕ) (a1 a2 a1i a2i : List F) (kind : Kind) (lo hi : ℝ) (degree : ℕ)
    (nrm : Bool) (p : Pair) (h : independentSpinMagnitudes n1 n2 a1 a2 a1i a2i kind lo hi degree nrm = .ok p)
    (c1 c2 : ℕ → ℝ) (pe : Bool) :
    ∃ I1 I2, Interp.make kind n1 lo hi (degree + 1) nrm = .ok I1 ∧ Interp.make kind n2 lo hi (degree + 1) nrm = .ok I2 ∧
      p.indCall c1 c2 pe = productOn (restrict lo hi (I1.eval c1)) (restrict lo hi (I2.eval c2))
        (if pe then a1 else a1i) (if pe then a2 else a2i) :=
  indCall_eq (pair_ok h).1 (pair_ok h).2 c1 c2 pe

/-- **C33**, IID spin tilts. -/
theorem C33_iid_spin_tilts (n : ℕ) (a1 a2 a1i a2i : List F) (kind : Kind) (lo hi : ℝ) (degree : ℕ) (nrm : Bool)
    (p : Pair) (h : iidSpinTilts n a1 a2 a1i a2i kind lo hi degree nrm = .ok p) (c : ℕ → ℝ) (pe : Bool) :
    ∃ I, Interp.make kind n lo hi (degree + 1) nrm = .ok I ∧
      p.iidCall c pe = productOn (restrict lo hi (I.eval c)) (restrict lo hi (I.eval c))
        (if pe then a1 else a1i) (if pe then a2 else a2i) := by
  obtain ⟨h1, h2⟩ := pair_ok h
  obtain ⟨I1, I2, hI1, hI2, e⟩ := indCall_eq h1 h2 c c pe
  rw [hI1, Except.ok.injEq] at hI2
  subst hI2
  exact ⟨I1, hI1, e⟩

/-- **C33**, independent spin tilts. -/
theorem C33_independent_spin_tilts (n1 n2 : ℕ) (a1 a2 a1i a2i : List F) (kind : Kind) (lo hi : ℝ) (degree : ℕ)
    (nrm : Bool) (p : Pair) (h : independentSpinTilts n1 n2 a1 a2 a1i a2i kind lo hi degree nrm = .ok p)
    (c1 c2 : ℕ → ℝ) (pe : Bool) :
    ∃ I1 I2, Interp.make kind n1 lo hi (degree + 1) nrm = .ok I1 ∧ Interp.make kind n2 lo hi (degree + 1) nrm = .ok I2 ∧
      p.indCall c1 c2 pe = productOn (restrict lo hi (I1.eval c1)) (restrict lo hi (I2.eval c2))
        (if pe then a1 else a1i) (if pe then a2 else a2i) :=
  indCall_eq (pair_ok h).1 (pair_ok h).2 c1 c2 pe

/-- **C33**, effective spin and effective precession: ranges `[-1,1]` and `[0,1]`. -/
theorem C33_effective_spins (ne np : ℕ) (e q ei qi : List F) (kind : Kind) (degree : ℕ) (nrm : Bool) (p : Pair)
    (h : effectiveSpinDims ne np e q ei qi kind degree nrm = .ok p) (ce cp : ℕ → ℝ) (pe : Bool) :
    ∃ I1 I2, Interp.make kind ne (-1) 1 (degree + 1) nrm = .ok I1 ∧ Interp.make kind np 0 1 (degree + 1) nrm = .ok I2 ∧
      p.indCall ce cp pe = productOn (restrict (-1) 1 (I1.eval ce)) (restrict 0 1 (I2.eval cp))
        (if pe then e else ei) (if pe then q else qi) :=
  indCall_eq (pair_ok h).1 (pair_ok h).2 ce cp pe

theorem mulArr_comm (a b : List F) : mulArr a b = mulArr b a := by
  induction a generalizing b with
  | nil => cases b <;> rfl
  | cons x xs ih =>
    cases b with
    | nil => rfl
    | cons y ys =>
      simp only [mulArr, List.zipWith_cons_cons] at ih ⊢
      rw [ih, F.mul_comm']

/-- **C33**, primary mass and mass ratio splines: the mass spline (log-log, `[m1min, mmax]`) at `m1` times the ratio
spline (log-Y, `[m2min/mmax, 1]`) at `q`. -/
theorem C33_primary_ratio (nm nq : ℕ) (m1 m1i q qi : List F) (mmax m1min m2min : ℝ) (degree : ℕ) (nrm : Bool) (p : Pair)
    (h : primaryRatio nm nq m1 m1i q qi mmax m1min m2min degree nrm = .ok p) (cm cq : ℕ → ℝ) (pe : Bool) :
    ∃ I1 I2, Interp.make .logXY nm m1min mmax (degree + 1) nrm = .ok I1 ∧
      Interp.make .logY nq (m2min / mmax) 1 (degree + 1) nrm = .ok I2 ∧
      p.primaryRatioCall cm cq pe = productOn (restrict m1min mmax (I1.eval cm))
        (restrict (m2min / mmax) 1 (I2.eval cq)) (if pe then m1 else m1i) (if pe then q else qi) := by
  obtain ⟨I1, I2, hI1, hI2, e⟩ := indCall_eq (pair_ok h).1 (pair_ok h).2 cm cq pe
  refine ⟨I1, I2, hI1, hI2, ?_⟩
  rw [Pair.primaryRatioCall, mulArr_comm]
  exact e

/-- **C33**, spline primary mass with power-law mass ratio: with `m1`, `q` the arrays of the chosen data set, entry `i`
is the mass spline at `m1_i` times the power law `q_i^beta` on `[mmin/m1_i, 1]`. -/
theorem C33_primary_powerlaw_ratio (n : ℕ) (m1 m1i q : List F) (lo hi : ℝ) (degree : ℕ) (nrm : Bool) (m : Base1D)
    (h : massModel n m1 m1i lo hi .logXY degree nrm = .ok m) (beta mmin : F) (c : ℕ → ℝ) (pe : Bool) :
    ∃ I, Interp.make .logXY n lo hi (degree + 1) nrm = .ok I ∧
      ∀ (i : ℕ) (x y : F), (if pe then m1 else m1i)[i]? = some x → q[i]? = some y →
        (primaryPowerlawRatioCall m (if pe then m1 else m1i) q beta mmin c pe)[i]? =
          some (restrict lo hi (I.eval c) x * powerlaw_pdf y beta (mmin / x) 1) := by
  obtain ⟨I, hI, e⟩ := C31_masked_evaluation _ _ _ _ _ _ _ _ _ h c pe
  refine ⟨I, hI, fun i x y hx hy => ?_⟩
  simp only [primaryPowerlawRatioCall, mulArr, e, List.getElem?_zipWith, List.getElem?_map, hx, hy, Option.map_some]

/-- **C33**, power-law-plus-peak primary mass with spline mass ratio. -/
theorem C33_plpeak_ratio (n : ℕ) (q qi m1 : List F) (qmin : ℝ) (degree : ℕ) (nrm : Bool) (m : Base1D)
    (h : ratioModel n q qi qmin .logY degree nrm = .ok m) (alpha mmin mmax mean sd frac : F) (c : ℕ → ℝ) (pe : Bool) :
    ∃ I, Interp.make .logY n qmin 1 (degree + 1) nrm = .ok I ∧
      plpeakRatioCall m m1 alpha mmin mmax mean sd frac c pe =
        productOn (fun x => plpeak_primary_pdf x alpha mmin mmax mean sd frac) (restrict qmin 1 (I.eval c)) m1
          (if pe then q else qi) := by
  obtain ⟨I, hI, e⟩ := C31_masked_evaluation _ _ _ _ _ _ _ _ _ h c pe
  exact ⟨I, hI, by rw [plpeakRatioCall, e, mulArr_productOn]⟩

example : ∃ p, iidSpinMagnitudes 8 [fin 0.2] [fin 0.4] [] [] = .ok p := by
  obtain ⟨m1, h1⟩ := Base1D.make_exists .logY 8 [fin 0.2] [] 0 1 3 true (by norm_num)
  obtain ⟨m2, h2⟩ := Base1D.make_exists .logY 8 [fin 0.4] [] 0 1 3 true (by norm_num)
  exact ⟨⟨m1, m2⟩, by simp only [iidSpinMagnitudes, spinMagnitudeModel, h1, h2]; rfl⟩

/-! ### C34 -/

private theorem comp_ok {a b : Except InitErr Base1D} {u v : List F} {p : CompMass}
    (h : (do let x ← a; let y ← b; pure (CompMass.mk x y u v) : Except InitErr CompMass) = .ok p) :
    a = .ok p.m1 ∧ b = .ok p.m2 ∧ p.qInj = u ∧ p.qPe = v := by
  cases a with
  | error e => simp [bind, Except.bind] at h
  | ok x =>
    cases b with
    | error e => simp [bind, Except.bind] at h
    | ok y =>
      simp only [bind, Except.bind, pure, Except.pure, Except.ok.injEq] at h
      subst h; exact ⟨rfl, rfl, rfl, rfl⟩

/-- **C34**, IID component masses, positive masses: exactly 0 whenever `m2 > m1`; for `m2 ≤ m1` the product of the two
mass densities with the pairing factor `(m2/m1)^beta`. -/
theorem C34_iid_component_masses (n : ℕ) (m1 m2 m1i m2i : List F) (lo hi : ℝ) (kind : Kind) (degree : ℕ) (nrm : Bool)
    (p : CompMass) (h : iidComponentMasses n m1 m2 m1i m2i lo hi kind degree nrm = .ok p) (c : ℕ → ℝ) (beta : ℝ)
    (pe : Bool) :
    ∃ I, Interp.make kind n lo hi (degree + 1) nrm = .ok I ∧
      ∀ (i : ℕ) (x y : ℝ), 0 < x → 0 < y → (if pe then m1 else m1i)[i]? = some (fin x) →
        (if pe then m2 else m2i)[i]? = some (fin y) →
        (x < y → (p.iidCall c (fin beta) pe)[i]? = some 0) ∧
        (y ≤ x → (p.iidCall c (fin beta) pe)[i]? =
          some (restrict lo hi (I.eval c) (fin x) * restrict lo hi (I.eval c) (fin y) * fin ((y / x) ^ beta))) := by
  obtain ⟨h1, h2, h3, h4⟩ := comp_ok h
  obtain ⟨I, hI, e1⟩ := C31_masked_evaluation _ _ _ _ _ _ _ _ _ h1 c pe
  obtain ⟨I', hI', e2⟩ := C31_masked_evaluation _ _ _ _ _ _ _ _ _ h2 c pe
  rw [hI, Except.ok.injEq] at hI'
  subst hI'
  refine ⟨I, hI, fun i x y hx hy hix hiy => ?_⟩
  have hq : ((if pe then p.qPe else p.qInj))[i]? = some (fin (y / x)) := by
    rw [h3, h4]
    cases pe
    · simp only [Bool.false_eq_true, if_false] at hix hiy ⊢
      rw [List.getElem?_zipWith, hix, hiy]
      simp [F.div_fin hx.ne']
    · simp only [if_true] at hix hiy ⊢
      rw [List.getElem?_zipWith, hix, hiy]
      simp [F.div_fin hx.ne']
  have hqp : 0 < y / x := div_pos hy hx
  have hpow : pow (fin (y / x)) (fin beta) = fin ((y / x) ^ beta) := F.pow_fin_pos hqp _
  constructor
  · intro hlt
    have hgt : 1 < y / x := (one_lt_div hx).2 hlt
    simp only [CompMass.iidCall, mulArr, e1, e2, List.getElem?_zipWith, List.getElem?_map, hix, hiy, hq, Option.map_some,
      hpow]
    rw [if_pos (Or.inr (by simpa using hgt))]
    simp
  · intro hle
    have hle' : y / x ≤ 1 := (div_le_one hx).2 hle
    simp only [CompMass.iidCall, mulArr, e1, e2, List.getElem?_zipWith, List.getElem?_map, hix, hiy, hq, Option.map_some,
      hpow]
    rw [if_neg]
    simp only [F.zero_def, F.one_def, F.lt_fin, F.gt_fin, not_or, not_lt]
    exact ⟨hqp.le, hle'⟩

/-- **C34**, independent component masses: there is no cut — every entry, also with `m2 > m1`, is the product of the two
mass densities and the pairing factor.  Partial; missing: the restriction to `m2 ≤ m1`, which the code does not apply: `C34_independent_fails`. -/
theorem C34_independent_value_partial (n1 n2 : ℕ) (m1 m2 m1i m2i : List F) (lo1 hi1 lo2 hi2 : ℝ) (kind : Kind) (degree : ℕ)
    (nrm : Bool) (p : CompMass)
    (h : independentComponentMasses n1 n2 m1 m2 m1i m2i lo1 hi1 lo2 hi2 kind degree nrm = .ok p) (c1 c2 : ℕ → ℝ)
    (beta : ℝ) (pe : Bool) :
    ∃ I1 I2, Interp.make kind n1 lo1 hi1 (degree + 1) nrm = .ok I1 ∧
      Interp.make kind n2 lo2 hi2 (degree + 1) nrm = .ok I2 ∧
      ∀ (i : ℕ) (x y : ℝ), 0 < x → 0 < y → (if pe then m1 else m1i)[i]? = some (fin x) →
        (if pe then m2 else m2i)[i]? = some (fin y) →
        (p.indCall c1 c2 (fin beta) pe)[i]? =
          some (restrict lo1 hi1 (I1.eval c1) (fin x) * restrict lo2 hi2 (I2.eval c2) (fin y) * fin ((y / x) ^ beta)) := by
  obtain ⟨h1, h2, h3, h4⟩ := comp_ok h
  obtain ⟨I, hI, e1⟩ := C31_masked_evaluation _ _ _ _ _ _ _ _ _ h1 c1 pe
  obtain ⟨I', hI', e2⟩ := C31_masked_evaluation _ _ _ _ _ _ _ _ _ h2 c2 pe
  refine ⟨I, I', hI, hI', fun i x y hx hy hix hiy => ?_⟩
  have hq : ((if pe then p.qPe else p.qInj))[i]? = some (fin (y / x)) := by
    rw [h3, h4]
    cases pe
    · simp only [Bool.false_eq_true, if_false] at hix hiy ⊢
      rw [List.getElem?_zipWith, hix, hiy]
      simp [F.div_fin hx.ne']
    · simp only [if_true] at hix hiy ⊢
      rw [List.getElem?_zipWith, hix, hiy]
      simp [F.div_fin hx.ne']
  have hpow : pow (fin (y / x)) (fin beta) = fin ((y / x) ^ beta) := F.pow_fin_pos (div_pos hy hx) _
  simp only [CompMass.indCall, mulArr, e1, e2, List.getElem?_zipWith, List.getElem?_map, hix, hiy, hq, Option.map_some,
    hpow]

/-- **C34 fails** for independent component masses (default log-log splines): every pair of masses inside the mass
ranges with `m2 > m1` gets a strictly positive density. -/
theorem C34_independent_fails (n1 n2 : ℕ) (m1 m2 m1i m2i : List F) (lo1 hi1 lo2 hi2 : ℝ) (degree : ℕ)
    (nrm : Bool) (p : CompMass) (hl1 : 0 < lo1) (hh1 : lo1 < hi1) (hl2 : 0 < lo2) (hh2 : lo2 < hi2)
    (hd : 1 ≤ degree) (hn1 : degree + 1 ≤ n1) (hn2 : degree + 1 ≤ n2)
    (hg1 : 1 / 1000000 ≤ (Real.log hi1 - Real.log lo1) / ((n1 : ℝ) - (degree + 1 : ℕ) + 1))
    (hg2 : 1 / 1000000 ≤ (Real.log hi2 - Real.log lo2) / ((n2 : ℝ) - (degree + 1 : ℕ) + 1))
    (h : independentComponentMasses n1 n2 m1 m2 m1i m2i lo1 hi1 lo2 hi2 .logXY degree nrm = .ok p) (c1 c2 : ℕ → ℝ)
    (hc1 : ∀ i < n1, -F.BIG < c1 i) (hc2 : ∀ i < n2, -F.BIG < c2 i)
    (beta : ℝ) (pe : Bool) (i : ℕ) (x y : ℝ) (hix : (if pe then m1 else m1i)[i]? = some (fin x))
    (hiy : (if pe then m2 else m2i)[i]? = some (fin y)) (_hxy : x < y) (hx : lo1 ≤ x ∧ x ≤ hi1) (hy : lo2 ≤ y ∧ y ≤ hi2) :
    ∃ v : ℝ, 0 < v ∧ (p.indCall c1 c2 (fin beta) pe)[i]? = some (fin v) := by
  obtain ⟨I1, I2, hI1, hI2, e⟩ := C34_independent_value_partial _ _ _ _ _ _ _ _ _ _ _ _ _ _ h c1 c2 beta pe
  have hx0 : 0 < x := hl1.trans_le hx.1
  have hy0 : 0 < y := hl2.trans_le hy.1
  obtain ⟨s1, hs1, v1⟩ := C31_spline_value .logXY n1 lo1 hi1 _ nrm I1 hI1 c1 x
  obtain ⟨s2, hs2, v2⟩ := C31_spline_value .logXY n2 lo2 hi2 _ nrm I2 hI2 c2 y
  obtain ⟨w1, hw1, e1⟩ := (C10_logXlogY_zero_outside_positive_inside n1 _ lo1 hi1 hl1 (hl1.trans hh1) (by omega) hn1 hg1 s1
    hs1 nrm c1 hc1 x hx0).1 hx
  obtain ⟨w2, hw2, e2⟩ := (C10_logXlogY_zero_outside_positive_inside n2 _ lo2 hi2 hl2 (hl2.trans hh2) (by omega) hn2 hg2 s2
    hs2 nrm c2 hc2 y hy0).1 hy
  refine ⟨w1 * w2 * (y / x) ^ beta, mul_pos (mul_pos hw1 hw2) (Real.rpow_pos_of_pos (div_pos hy0 hx0) _), ?_⟩
  rw [e i x y hx0 hy0 hix hiy, restrict, if_pos hx, restrict, if_pos hy, v1, v2, e1, e2, F.mul_fin, F.mul_fin]

/-- the hypotheses of `C34_independent_fails` hold for the documented default ranges -/
example : (1 : ℝ) / 1000000 ≤ (Real.log 100 - Real.log 2) / (((10 : ℕ) : ℝ) - (3 + 1 : ℕ) + 1) := by
  rw [← Real.log_div (by norm_num) (by norm_num)]
  have : (1 : ℝ) ≤ Real.log (100 / 2) := by
    rw [Real.le_log_iff_exp_le (by norm_num)]
    exact Real.exp_one_lt_three.le.trans (by norm_num)
  rw [le_div_iff₀ (by norm_num)]
  norm_num at this ⊢; linarith

end GW
end
