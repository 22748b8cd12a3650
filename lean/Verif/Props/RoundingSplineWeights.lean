import Verif.Props.RoundingLogSplineExact
import Verif.Props.RoundingPopulation

/-! # Property C150: the B-spline analysis in rounded arithmetic, from the samples to the log-likelihood -/

open Finset
noncomputable section
open Classical
namespace GW
open F

variable {f : Arith} {κ : ℝ}

/-! ### the exact weight -/

/-- density of a spline model of the variable itself -/
def SplineModel.density (d : SplineModel) (x : ℝ) : ℝ := splineDensity d.s d.n d.grid d.c x
/-- density of a spline model of the logarithm of the variable -/
def SplineModel.logDensity (d : SplineModel) (x : ℝ) : ℝ := logSplineDensity d.s d.n d.grid d.c x
/-- density of primary mass and mass ratio -/
def SplinePop.masses (p : SplinePop) (d : PeakSample) : ℝ := p.ratio.density d.mass_ratio * p.mass.logDensity d.mass_1
/-- density of the spin magnitudes -/
def SplinePop.magnitudes (p : SplinePop) (d : PeakSample) : ℝ := p.a1.density d.a_1 * p.a2.density d.a_2
/-- density of the cosines of the tilts -/
def SplinePop.tilts (p : SplinePop) (d : PeakSample) : ℝ := p.ct1.density d.cos_tilt_1 * p.ct2.density d.cos_tilt_2
/-- density of the redshift -/
def SplinePop.redshift (p : SplinePop) (d : PeakSample) : ℝ :=
  splineRedshiftWeight p.red.s p.red.c p.lamb d.redshift d.dVdz / trapz (p.red.n + 1) (fun j => splineRedshiftWeight p.red.s p.red.c p.lamb (p.red.grid j) (p.dVdz_ j)) p.red.grid
/-- the weight of one sample -/
def SplinePop.weight (p : SplinePop) (d : PeakSample) : ℝ := p.masses d * p.magnitudes d * p.tilts d * p.redshift d / d.prior

/-! ### what is assumed -/

/-- a model of the variable itself in the range of C144, with relative error `ε` -/
def SplineModel.OkY (κ ε : ℝ) (d : SplineModel) : Prop :=
  ∃ (m D D' : ℕ) (A : ℝ), SplineOK κ d.s m D D' d.o d.og d.grid d.c A ∧ 2 * ((10 * d.s.order + 5 + 2 * D) * κ * A) + (16 + 2 * D') * κ ≤ ε

/-- what C149 asks of spline, grid and coefficients, for the density in the logarithm and for the redshift -/
structure LogSplineOK (f : Arith) (κ : ℝ) (d : SplineModel) (m D D' : ℕ) (A W Λ : ℝ) : Prop where
  dens : d.s.DensityOK m d.o D d.c A κ
  steady : d.s.Steady W
  range : d.s.lo ≤ d.s.hi
  cover : d.og.Covers
  depth : d.og.depth ≤ D'
  points : d.n ≤ 2 ^ 12
  steps : ∀ j < d.n, (2⁻¹:ℝ) ^ 18 ≤ d.grid (j + 1) - d.grid j ∧ d.grid (j + 1) - d.grid j ≤ 2 ^ 18
  inside : ∀ j ≤ d.n, d.s.LogPoint f Λ (d.grid j)
  nonneg : 0 ≤ A
  coefs : A ≤ 30

/-- a model of the logarithm in the range of C149, with relative error `ε` -/
def SplineModel.OkXY (f : Arith) (κ Λ ε : ℝ) (d : SplineModel) : Prop :=
  ∃ (m D D' : ℕ) (A W : ℝ), LogSplineOK f κ d m D D' A W Λ ∧ 2 * logSplineErr d.s D A W Λ κ + (16 + 2 * D') * κ ≤ ε

/-- the redshift model in the range of C149, with relative error `ε` -/
def SplinePop.RedOK (f : Arith) (κ Λ ε : ℝ) (p : SplinePop) : Prop :=
  (∃ (m D D' : ℕ) (A W : ℝ), LogSplineOK f κ p.red m D D' A W Λ ∧ 2 * splineRedshiftErr p.red.s D A W Λ p.lamb κ + (10 + 2 * D') * κ ≤ ε) ∧
    (∀ j ≤ p.red.n, RedshiftOK (p.red.grid j) (p.dVdz_ j) (p.lamb - 1)) ∧
    ∀ j ≤ p.red.n, (2⁻¹:ℝ) ^ 44 ≤ splineRedshiftWeight p.red.s p.red.c p.lamb (p.red.grid j) (p.dVdz_ j) ∧ splineRedshiftWeight p.red.s p.red.c p.lamb (p.red.grid j) (p.dVdz_ j) ≤ 2 ^ 44

/-- the models and their coefficients: every density has relative error at most `ε` -/
structure SplinePop.OK (f : Arith) (κ Λ ε : ℝ) (p : SplinePop) : Prop where
  mass : p.mass.OkXY f κ Λ ε
  ratio : p.ratio.OkY κ ε
  a1 : p.a1.OkY κ ε
  a2 : p.a2.OkY κ ε
  ct1 : p.ct1.OkY κ ε
  ct2 : p.ct2.OkY κ ε
  red : p.RedOK f κ Λ ε
  small : 4 * (2 * ε + 4 * κ) ≤ 1 / 32

/-- a point of the range of a model of the variable itself -/
def SplineModel.Point (d : SplineModel) (x : ℝ) : Prop := (d.xmin ≤ x ∧ x ≤ d.xmax) ∧ d.s.Inside x

/-- one sample: all parameters inside the ranges of the models, and the products in the range of single precision -/
structure SplinePop.SampleOK (f : Arith) (Λ : ℝ) (p : SplinePop) (d : PeakSample) : Prop where
  mass : (p.mass.xmin ≤ d.mass_1 ∧ d.mass_1 ≤ p.mass.xmax) ∧ p.mass.s.LogPoint f Λ d.mass_1
  ratio : p.ratio.Point d.mass_ratio
  a1 : p.a1.Point d.a_1
  a2 : p.a2.Point d.a_2
  ct1 : p.ct1.Point d.cos_tilt_1
  ct2 : p.ct2.Point d.cos_tilt_2
  zpoint : p.red.s.LogPoint f Λ d.redshift
  zrange : RedshiftOK d.redshift d.dVdz (p.lamb - 1)
  zsize : (2⁻¹:ℝ) ^ 44 ≤ splineRedshiftWeight p.red.s p.red.c p.lamb d.redshift d.dVdz ∧ splineRedshiftWeight p.red.s p.red.c p.lamb d.redshift d.dVdz ≤ 2 ^ 44
  zle : d.redshift ≤ p.red.xmax
  mags : (2⁻¹:ℝ) ^ 122 ≤ p.magnitudes d ∧ p.magnitudes d ≤ 2 ^ 122
  tilts : (2⁻¹:ℝ) ^ 122 ≤ p.tilts d ∧ p.tilts d ≤ 2 ^ 122
  prefixes : PrefixOK (p.masses d) [p.magnitudes d, p.tilts d, p.redshift d]
  size : (2⁻¹:ℝ) ^ 122 ≤ p.weight d ∧ p.weight d ≤ 2 ^ 122

theorem RTree.pos {n : ℕ} (o : RTree n) : 0 < n := by
  induction o with
  | leaf i => exact i.pos
  | node _ _ ih _ => exact ih

theorem trapz_pos_of {n : ℕ} (o : RTree n) {Y grid : ℕ → ℝ} (hY : ∀ j ≤ n, 0 < Y j) (hg : ∀ j < n, (2⁻¹:ℝ) ^ 18 ≤ grid (j + 1) - grid j) : 0 < trapz (n + 1) Y grid := by
  unfold trapz
  rw [Nat.add_sub_cancel]
  refine mul_pos (by norm_num) (Finset.sum_pos (fun j hj => ?_) ⟨0, by simpa using o.pos⟩)
  have hj := Finset.mem_range.1 hj
  have a := hY j hj.le
  have b := hY (j + 1) hj
  have c := hg j hj
  have h18 : (0:ℝ) < 2⁻¹ ^ 18 := by positivity
  exact mul_pos (by linarith) (by linarith)

theorem Arith.Contract.callY (C : f.Contract κ) {d : SplineModel} {ε : ℝ} (h : d.OkY κ ε) (hε : ε ≤ 1) {x : ℝ} (hx : d.Point x) : ∃ y, d.callYR f x = fin y ∧ Rel ε (d.density x) y := by
  obtain ⟨m, D, D', A, ho, he⟩ := h
  obtain ⟨y, ey, wy⟩ := C144_density C ho.dens ho.cover ho.depth ho.points ho.steps ho.inside hx.2 ho.nonneg ho.coefs (he.trans hε)
  refine ⟨y, ?_, (Rel.of_within (lt_of_lt_of_le (by positivity) (ho.bounds C hx.2).1) wy).mono he⟩
  unfold SplineModel.callYR
  rw [if_pos hx.1]; exact ey

theorem LogSplineOK.pos {d : SplineModel} {m D D' : ℕ} {A W Λ : ℝ} (h : LogSplineOK f κ d m D D' A W Λ) (x : ℝ) : 0 < d.logDensity x :=
  mul_pos (Real.exp_pos _) (one_div_pos.2 (trapz_pos_of d.og (fun _ _ => Real.exp_pos _) fun j hj => (h.steps j hj).1))

theorem Arith.Contract.callXY (C : f.Contract κ) {d : SplineModel} {ε Λ : ℝ} (h : d.OkXY f κ Λ ε) (hε : ε ≤ 1) {x : ℝ} (hx : (d.xmin ≤ x ∧ x ≤ d.xmax) ∧ d.s.LogPoint f Λ x) :
    ∃ y, d.callXYR f x = fin y ∧ Rel ε (d.logDensity x) y := by
  obtain ⟨m, D, D', A, W, ho, he⟩ := h
  obtain ⟨y, ey, wy⟩ := C149_density C ho.dens ho.steady ho.range ho.cover ho.depth ho.points ho.steps ho.inside hx.2 ho.nonneg ho.coefs (he.trans hε)
  refine ⟨y, ?_, (Rel.of_within (ho.pos x) wy).mono he⟩
  unfold SplineModel.callXYR
  rw [if_pos hx.1]; exact ey

theorem SplinePop.OK.trapz_pos {p : SplinePop} {Λ ε : ℝ} (h : p.RedOK f κ Λ ε) : 0 < trapz (p.red.n + 1) (fun j => splineRedshiftWeight p.red.s p.red.c p.lamb (p.red.grid j) (p.dVdz_ j)) p.red.grid := by
  obtain ⟨⟨m, D, D', A, W, ho, -⟩, -, hs⟩ := h
  exact trapz_pos_of p.red.og (fun j hj => lt_of_lt_of_le (by positivity) (hs j hj).1) fun j hj => (ho.steps j hj).1

/-- **C150.** The weight of one sample in rounded arithmetic is the exact weight up to a factor whose logarithm is at most `4 (2 ε + 4 κ)`, `ε` the error of one density. -/
theorem C150_weight (C : f.Contract κ) {pw : F → F → F} (P : PowContract pw κ) {Λ ε : ℝ} {p : SplinePop} {d : PeakSample} (g : p.OK f κ Λ ε) (h : p.SampleOK f Λ d) :
    ∃ w, splineWeightR f pw p d = fin w ∧ Within (4 * (2 * ε + 4 * κ)) (p.weight d) w := by
  have hκ := C.pos
  have hsm := g.small
  have hε : ε ≤ 1 := by linarith
  obtain ⟨q, eq, rq⟩ := C.callY g.ratio hε h.ratio
  obtain ⟨m, em, rm⟩ := C.callXY g.mass hε h.mass
  obtain ⟨a, ea, ra⟩ := C.callY g.a1 hε h.a1
  obtain ⟨b, eb, rb⟩ := C.callY g.a2 hε h.a2
  obtain ⟨s, es, rs⟩ := C.callY g.ct1 hε h.ct1
  obtain ⟨t, et, rt⟩ := C.callY g.ct2 hε h.ct2
  have hz0 : 0 < p.redshift d := div_pos (lt_of_lt_of_le (by positivity) h.zsize.1) (SplinePop.OK.trapz_pos g.red)
  obtain ⟨z, ez, wz⟩ : ∃ z, splineRedshiftCallR f pw p.red.s p.red.o (fun i => fin (p.red.c i)) p.red.og p.red.grid (fun j => fin (p.dVdz_ j)) p.red.xmax d.redshift (fin d.dVdz) (fin p.lamb) = fin z ∧
      Within ε (p.redshift d) z := by
    obtain ⟨⟨m, D, D', A, W, ho, he⟩, hr, hs⟩ := g.red
    obtain ⟨z, ez, wz⟩ := C149_redshift C P ho.dens ho.steady ho.cover ho.depth ho.points ho.inside hr hs ho.steps h.zpoint h.zrange h.zsize h.zle ho.nonneg ho.coefs (he.trans hε)
    exact ⟨z, ez, wz.mono he hz0.le⟩
  have hε0 : 0 ≤ ε := by
    obtain ⟨δ, hδ, -⟩ := rq
    exact (abs_nonneg _).trans hδ
  have hm0 : 0 < p.masses d := lt_of_lt_of_le (by positivity) h.prefixes.1
  have ha0 : 0 < p.magnitudes d := lt_of_lt_of_le (by positivity) h.mags.1
  have ht0 : 0 < p.tilts d := lt_of_lt_of_le (by positivity) h.tilts.1
  obtain ⟨m', em', rm'⟩ := C.rel_round (rq.mul rm) (by linarith) h.prefixes.1 h.prefixes.2.1
  obtain ⟨a', ea', ra'⟩ := C.rel_round (ra.mul rb) (by linarith) h.mags.1 h.mags.2
  obtain ⟨t', et', rt'⟩ := C.rel_round (rs.mul rt) (by linarith) h.tilts.1 h.tilts.2
  have e2 : ε + ε + 2 * κ ≤ 2 * ε + 2 * κ := by linarith
  have e : p.masses d * [p.magnitudes d, p.tilts d, p.redshift d].prod / d.prior = p.weight d := by
    unfold SplinePop.weight; simp only [List.prod_cons, List.prod_nil]; ring
  obtain ⟨w, ew, ww⟩ := C145_weight C (ε := 2 * ε + 2 * κ) (by linarith) (x := p.masses d) (xs := [p.magnitudes d, p.tilts d, p.redshift d]) (ys := [a', t', z]) (prior := d.prior)
    ((rm'.mono e2).within hm0.le) (.cons ((ra'.mono e2).within ha0.le) (.cons ((rt'.mono e2).within ht0.le) (.cons (wz.mono (by linarith) hz0.le) .nil)))
    (by simp only [List.mem_cons, List.not_mem_nil, or_false]
        rintro x (rfl | rfl | rfl) <;> assumption) h.prefixes (by rw [e]; exact h.size) (by simp only [List.length_cons, List.length_nil]; push_cast; linarith)
  refine ⟨w, ?_, ?_⟩
  · unfold splineWeightR
    rw [eq, em, ea, eb, es, et, ez, mul_fin, mul_fin, mul_fin, em', ea', et']
    exact ew
  · rw [e] at ww
    refine ww.mono (le_of_eq ?_) (le_trans (by positivity) h.size.1)
    simp only [List.length_cons, List.length_nil]; push_cast; ring

/-- **C150.** Without rounding and with exact library functions the weight is `SplinePop.weight`. -/
theorem C150_exact {Λ ε : ℝ} {p : SplinePop} {d : PeakSample} (g : p.OK Arith.exact κ Λ ε) (h : p.SampleOK Arith.exact Λ d) (hpr : d.prior ≠ 0) :
    splineWeightR Arith.exact F.pow p d = fin (p.weight d) := by
  have flo := flLo_pos
  have key : ∀ {m : SplineModel} {x : ℝ}, m.OkY κ ε → m.Point x → m.callYR Arith.exact x = fin (m.density x) := by
    rintro m x ⟨k, D, D', A, ho, -⟩ hx
    unfold SplineModel.callYR
    rw [if_pos hx.1]
    exact C144_exact ho.dens.knots.order.1 m.o ho.dens.covers m.og ho.cover (fun j hj => (ho.inside j hj).inside) m.c
      (trapz_pos_of m.og (fun _ _ => Real.exp_pos _) fun j hj => (ho.steps j hj).1).ne' hx.2.inside
  have pt : ∀ {s : Spline} {x : ℝ}, s.LogPoint Arith.exact Λ x → 0 < x ∧ ¬ s.outside (Real.log x) := by
    intro s x hx
    have h0 : 0 < x := flo.trans_le hx.low
    obtain ⟨y, ey, hy⟩ := hx.inside
    have : Arith.exact.log (fin x) = fin (Real.log x) := F.log_fin h0
    rw [this] at ey
    cases ey
    exact ⟨h0, hy⟩
  have em : p.mass.callXYR Arith.exact d.mass_1 = fin (p.mass.logDensity d.mass_1) := by
    obtain ⟨k, D, D', A, W, ho, -⟩ := g.mass
    unfold SplineModel.callXYR
    rw [if_pos h.mass.1]
    exact (C149_exact ho.dens.knots.order.1 p.mass.o ho.dens.covers p.mass.og ho.cover (fun j hj => pt (ho.inside j hj)) p.mass.c (pt h.mass.2)).1
      (trapz_pos_of p.mass.og (fun _ _ => Real.exp_pos _) fun j hj => (ho.steps j hj).1).ne'
  have hT := SplinePop.OK.trapz_pos g.red
  have ez : splineRedshiftCallR Arith.exact F.pow p.red.s p.red.o (fun i => fin (p.red.c i)) p.red.og p.red.grid (fun j => fin (p.dVdz_ j)) p.red.xmax d.redshift (fin d.dVdz) (fin p.lamb) = fin (p.redshift d) := by
    obtain ⟨⟨k, D, D', A, W, ho, -⟩, -, -⟩ := g.red
    exact (C149_exact ho.dens.knots.order.1 p.red.o ho.dens.covers p.red.og ho.cover (fun j hj => pt (ho.inside j hj)) p.red.c (pt h.zpoint)).2 p.dVdz_ d.dVdz p.lamb p.red.xmax h.zle hT.ne'
  unfold splineWeightR weightR
  rw [key g.ratio h.ratio, em, key g.a1 h.a1, key g.a2 h.a2, key g.ct1 h.ct1, key g.ct2 h.ct2, ez]
  simp only [List.foldl_cons, List.foldl_nil, mul_fin, exact_r, div_fin hpr]
  rfl

/-- the limits exclude `x` -/
def SplineModel.Beyond (d : SplineModel) (x : ℝ) : Prop := x < d.xmin ∨ d.xmax < x

theorem SplineModel.Beyond.zero {d : SplineModel} {x : ℝ} (h : d.Beyond x) : d.callYR f x = fin 0 ∧ d.callXYR f x = fin 0 := by
  have : ¬ (d.xmin ≤ x ∧ x ≤ d.xmax) := by rintro ⟨h1, h2⟩; rcases h with h | h <;> linarith
  constructor
  · unfold SplineModel.callYR; rw [if_neg this]; rfl
  · unfold SplineModel.callXYR; rw [if_neg this]; rfl

/-- a factor zero among finite ones -/
theorem weightR_zero (C : f.Contract κ) {m a t z prior u v : ℝ} (hpr : prior ≠ 0) (hu : f.r (fin m * fin a) = fin u) (hv : f.r (fin u * fin t) = fin v) (h : m = 0 ∨ a = 0 ∨ t = 0 ∨ z = 0) :
    weightR f (fin m) [fin a, fin t, fin z] prior = fin 0 := by
  have r0 : f.r (fin 0) = fin 0 := C.rd_zero
  unfold weightR
  simp only [List.foldl_cons, List.foldl_nil]
  rw [hu, hv, mul_fin]
  have key : v * z = 0 := by
    rcases h with rfl | rfl | rfl | rfl
    · rw [mul_fin, zero_mul, r0] at hu; cases hu
      rw [mul_fin, zero_mul, r0] at hv; cases hv
      simp
    · rw [mul_fin, mul_zero, r0] at hu; cases hu
      rw [mul_fin, zero_mul, r0] at hv; cases hv
      simp
    · rw [mul_fin, mul_zero, r0] at hv; cases hv
      simp
    · simp
  rw [key, r0, div_fin hpr, zero_div, r0]

/-- **C150**, the limits: take a sample in the ranges and move one of its parameters beyond the limits of the model; its weight is then exactly zero, for the redshift beyond the upper limit only. -/
theorem C150_outside (C : f.Contract κ) {pw : F → F → F} (P : PowContract pw κ) {Λ ε : ℝ} {p : SplinePop} {d : PeakSample} (g : p.OK f κ Λ ε) (h : p.SampleOK f Λ d) (hpr : d.prior ≠ 0) (x : ℝ) :
    (p.mass.Beyond x → splineWeightR f pw p { d with mass_1 := x } = fin 0) ∧ (p.ratio.Beyond x → splineWeightR f pw p { d with mass_ratio := x } = fin 0) ∧
    (p.a1.Beyond x → splineWeightR f pw p { d with a_1 := x } = fin 0) ∧ (p.a2.Beyond x → splineWeightR f pw p { d with a_2 := x } = fin 0) ∧
    (p.ct1.Beyond x → splineWeightR f pw p { d with cos_tilt_1 := x } = fin 0) ∧ (p.ct2.Beyond x → splineWeightR f pw p { d with cos_tilt_2 := x } = fin 0) ∧
    (p.red.xmax < x → splineWeightR f pw p { d with redshift := x } = fin 0) := by
  have hκ := C.pos
  have hsm := g.small
  have hε : ε ≤ 1 := by linarith
  have r0 : f.r (fin 0) = fin 0 := C.rd_zero
  obtain ⟨q, eq, rq⟩ := C.callY g.ratio hε h.ratio
  obtain ⟨m, em, rm⟩ := C.callXY g.mass hε h.mass
  obtain ⟨a, ea, ra⟩ := C.callY g.a1 hε h.a1
  obtain ⟨b, eb, rb⟩ := C.callY g.a2 hε h.a2
  obtain ⟨s, es, rs⟩ := C.callY g.ct1 hε h.ct1
  obtain ⟨t, et, rt⟩ := C.callY g.ct2 hε h.ct2
  have hε0 : 0 ≤ ε := by
    obtain ⟨δ, hδ, -⟩ := rq
    exact (abs_nonneg _).trans hδ
  obtain ⟨z, ez⟩ : ∃ z, splineRedshiftCallR f pw p.red.s p.red.o (fun i => fin (p.red.c i)) p.red.og p.red.grid (fun j => fin (p.dVdz_ j)) p.red.xmax d.redshift (fin d.dVdz) (fin p.lamb) = fin z := by
    obtain ⟨⟨m, D, D', A, W, ho, he⟩, hr, hs⟩ := g.red
    obtain ⟨z, ez, -⟩ := C149_redshift C P ho.dens ho.steady ho.cover ho.depth ho.points ho.inside hr hs ho.steps h.zpoint h.zrange h.zsize h.zle ho.nonneg ho.coefs (he.trans hε)
    exact ⟨z, ez⟩
  obtain ⟨m', em', rm'⟩ := C.rel_round (rq.mul rm) (by linarith) h.prefixes.1 h.prefixes.2.1
  obtain ⟨a', ea', ra'⟩ := C.rel_round (ra.mul rb) (by linarith) h.mags.1 h.mags.2
  obtain ⟨t', et', rt'⟩ := C.rel_round (rs.mul rt) (by linarith) h.tilts.1 h.tilts.2
  obtain ⟨u, eu, ru⟩ := C.rel_round (rm'.mul ra') (by linarith) h.prefixes.2.2.1 h.prefixes.2.2.2.1
  obtain ⟨v, ev, -⟩ := C.rel_round (ru.mul rt') (by linarith) h.prefixes.2.2.2.2.1 h.prefixes.2.2.2.2.2.1
  have zu : f.r (fin 0 * fin a') = fin 0 := by rw [mul_fin, zero_mul, r0]
  have zv : f.r (fin 0 * fin t') = fin 0 := by rw [mul_fin, zero_mul, r0]
  have zl : ∀ y : ℝ, f.r (fin 0 * fin y) = fin 0 := fun y => by rw [mul_fin, zero_mul, r0]
  have zr : ∀ y : ℝ, f.r (fin y * fin 0) = fin 0 := fun y => by rw [mul_fin, mul_zero, r0]
  rw [← mul_fin] at eu ev em' ea' et'
  refine ⟨fun hx => ?_, fun hx => ?_, fun hx => ?_, fun hx => ?_, fun hx => ?_, fun hx => ?_, fun hx => ?_⟩ <;> unfold splineWeightR <;> simp only
  · rw [eq, hx.zero.2, ea, eb, es, et, ez, zr, ea', et']
    exact weightR_zero C hpr zu zv (.inl rfl)
  · rw [hx.zero.1, em, ea, eb, es, et, ez, zl, ea', et']
    exact weightR_zero C hpr zu zv (.inl rfl)
  · rw [eq, em, hx.zero.1, eb, es, et, ez, zl, em', et']
    exact weightR_zero C hpr (zr m') zv (.inr (.inl rfl))
  · rw [eq, em, ea, hx.zero.1, es, et, ez, zr, em', et']
    exact weightR_zero C hpr (zr m') zv (.inr (.inl rfl))
  · rw [eq, em, ea, eb, hx.zero.1, et, ez, zl, em', ea']
    exact weightR_zero C hpr eu (zr u) (.inr (.inr (.inl rfl)))
  · rw [eq, em, ea, eb, es, hx.zero.1, ez, zr, em', ea']
    exact weightR_zero C hpr eu (zr u) (.inr (.inr (.inl rfl)))
  · have e0 : splineRedshiftCallR f pw p.red.s p.red.o (fun i => fin (p.red.c i)) p.red.og p.red.grid (fun j => fin (p.dVdz_ j)) p.red.xmax x (fin d.dVdz) (fin p.lamb) = fin 0 := by
      unfold splineRedshiftCallR
      rw [if_neg (show ¬ le (fin x) (fin p.red.xmax) from not_le.2 hx)]; rfl
    rw [eq, em, ea, eb, es, et, e0, em', ea', et']
    exact weightR_zero C hpr eu ev (.inr (.inr (.inr rfl)))

/-- **C150.** The log-likelihood of the B-spline analysis in rounded arithmetic: if every posterior sample and every found injection satisfies `SampleOK`, the number returned differs from the one computed from
the exact weights by at most the bound below (`ε₁ = 4 (2 ε + 4 κ)` the error of a weight). -/
theorem C150_likelihood {Ne N M : ℕ} (C : f.Contract κ) {pw : F → F → F} (P : PowContract pw κ) {Λ ε : ℝ} {p : SplinePop} (g : p.OK f κ Λ ε)
    {Dl : ℕ} {T K : ℝ} (hT : Budget κ Dl T) (hKT : K * T ≤ 1 / 128) (ol : Orders Ne N M) (hol : ol.Covers) (holD : ol.DepthLe Dl) (fl : Flags) (hlog : fl.log = false)
    (pe : Fin Ne → Fin N → PeakSample) (inj : Fin M → PeakSample) (hpe : ∀ e i, p.SampleOK f Λ (pe e i)) (hinj : ∀ i, p.SampleOK f Λ (inj i))
    (total Nobs : ℕ) (hR : PopRange (4 * (2 * ε + 4 * κ)) K T fl (fun e i => p.weight (pe e i)) (fun i => p.weight (inj i)) total Nobs)
    (Tobs : F) (hv : Option F) (unscaled : F) (hfl : fl.ok) (hhv : fl.reconstruct_rate = true → hv ≠ none) :
    ∃ L L' : ℝ, factors (hierarchical_likelihood fl (.single fun e i => fin (p.weight (pe e i))) (fun i => fin (p.weight (inj i))) total Nobs Tobs hv unscaled none).1 = [fin L] ∧
      logLikelihoodR f ol fl (fun e i => splineWeightR f pw p (pe e i)) (fun i => splineWeightR f pw p (inj i)) total Nobs = fin L' ∧
      |L' - L| ≤ ((400 + 5 * K) * T + 4 * (2 * ε + 4 * κ)) * Ne + (400 * T + 4 * (2 * ε + 4 * κ)) * Nobs + (12000 * T + 16 * (4 * (2 * ε + 4 * κ))) * (if fl.marginalize_selection then
        Nobs * (3 + Nobs) / 2 * relVar (fun i => p.weight (inj i)) total else 0) := by
  have hκ := C.pos
  choose w' ew' ww' using fun e i => C150_weight C P g (hpe e i)
  choose v' ev' wv' using fun i => C150_weight C P g (hinj i)
  have hε0 : 0 ≤ 4 * (2 * ε + 4 * κ) := by
    obtain ⟨i, -⟩ := hR.inj.pos
    have h1 := (wv' i).1.trans (wv' i).2
    have h2 : 0 < p.weight (inj i) := lt_of_lt_of_le (by positivity) (hinj i).size.1
    have h3 := Real.exp_le_exp.1 (le_of_mul_le_mul_right h1 h2)
    linarith
  obtain ⟨L, L', eL, eL', hL⟩ := C145_likelihood C hT hKT hε0 g.small ol hol holD fl _ w' _ v' total Nobs hR ww' wv' Tobs hv unscaled hfl hhv
  refine ⟨L, L', ?_, ?_, hL⟩
  · simpa only [hlog, encode, Bool.false_eq_true, if_false] using eL
  · simp only [hlog, encode, Bool.false_eq_true, if_false] at eL'
    simpa only [ew', ev'] using eL'

/-! ### single precision: order 2, three coefficients of size at most one each, mass and redshift from 4 to 12 -/

/-- the spline of order 2 with knots `a - w, a, a + w, a + 2 w, a + 3 w` and range `a` to `a + 2 w` -/
def hatAt (a w : ℝ) : Spline := ⟨2, 3, a, a + 2 * w, ⟨5, fun i => a + w * ((i:ℝ) - 1)⟩⟩

/-- the ranges of the example: the unit interval and the interval from -1 to 1 -/
def HatRange (a w : ℝ) : Prop := (a = 0 ∧ w = 1 / 2) ∨ (a = -1 ∧ w = 1)

theorem HatRange.bounds {a w : ℝ} (h : HatRange a w) : -1 ≤ a ∧ a ≤ 0 ∧ 1 / 2 ≤ w ∧ w ≤ 1 := by
  rcases h with ⟨rfl, rfl⟩ | ⟨rfl, rfl⟩ <;> norm_num

theorem hatAt_ok {a w : ℝ} (h : HatRange a w) : (hatAt a w).KnotsOK 3 where
  len := rfl
  mono i j hij _ := by
    have : (i:ℝ) ≤ j := by exact_mod_cast hij
    have := h.bounds
    simp only [hatAt]; nlinarith
  gap i _ := by
    right
    have := h.bounds
    simp only [hatAt]; push_cast; ring_nf; norm_num; linarith
  range i hi := by
    simp only [hatAt] at hi ⊢
    have h5 : (i:ℝ) ≤ 5 := by exact_mod_cast hi.le
    have := h.bounds
    norm_num
    nlinarith
  small := by norm_num
  order := by simp [hatAt]

theorem hatAt_sum {a w x : ℝ} (h : HatRange a w) (h1 : a ≤ x) (h3 : x ≤ a + 2 * w) : ∑ i ∈ range (hatAt a w).N, (hatAt a w).bBases i x = 1 := by
  have hb := h.bounds
  have e1 : (⟨5, fun i => a + w * ((i:ℝ) - 1)⟩ : Arr ℝ).get (2 - 1) = a := by norm_num
  have e2 : (⟨5, fun i => a + w * ((i:ℝ) - 1)⟩ : Arr ℝ).get 3 = a + 2 * w := by norm_num; ring
  have hs : Spline.init 3 (some ⟨5, fun i => a + w * ((i:ℝ) - 1)⟩) none ((⟨5, fun i => a + w * ((i:ℝ) - 1)⟩ : Arr ℝ).get (2 - 1)) ((⟨5, fun i => a + w * ((i:ℝ) - 1)⟩ : Arr ℝ).get 3) 2 = .ok (hatAt a w) := by
    rw [e1, e2]; simp [Spline.init, hatAt]; rfl
  exact C01_partition_of_unity_explicit 3 2 ⟨5, fun i => a + w * ((i:ℝ) - 1)⟩ le_rfl (by norm_num)
    (fun i j hij _ => by have : (i:ℝ) ≤ j := by exact_mod_cast hij
                         simp only; nlinarith)
    (fun i _ => by right; simp only; push_cast; ring_nf; linarith) (by norm_num; linarith) (hatAt a w) hs x (by rw [e1, e2]; exact ⟨h1, h3⟩)

theorem hatAt_inside {a w x : ℝ} (h : HatRange a w) (h1 : a ≤ x) (h3 : x ≤ a + 2 * w) : (hatAt a w).Inside x where
  inside := by unfold Spline.outside; simp only [hatAt]; push Not; exact ⟨h1, h3⟩
  near j hj := by
    simp only [hatAt] at hj ⊢
    have : (j:ℝ) ≤ 5 := by exact_mod_cast hj.le
    have h0 : (0:ℝ) ≤ j := Nat.cast_nonneg j
    have := h.bounds
    have q1 : w * ((j:ℝ) - 1) ≤ 4 := by nlinarith
    have q2 : -1 ≤ w * ((j:ℝ) - 1) := by nlinarith
    rw [abs_le]; constructor <;> norm_num <;> linarith
  unit := (hatAt_sum h h1 h3).le

/-- the model of the example on `a` to `a + 2 w`: the sums from left to right, a grid of three points -/
def hatModel (a w : ℝ) (c : ℕ → ℝ) : SplineModel where
  xmin := a
  xmax := a + 2 * w
  s := hatAt a w
  o := .node (.node (.leaf ⟨0, by simp [hatAt]⟩) (.leaf ⟨1, by simp [hatAt]⟩)) (.leaf ⟨2, by simp [hatAt]⟩)
  n := 2
  og := hatGridOrder
  grid j := a + w * j
  c := c

theorem hatGridOrder_depth : hatGridOrder.depth ≤ 1 := by decide

theorem hatModel_splineOK {a w : ℝ} (h : HatRange a w) {c : ℕ → ℝ} (hc : ∀ i < 3, |c i| ≤ 1) :
    SplineOK (2⁻¹ ^ 23) (hatModel a w c).s 3 2 1 (hatModel a w c).o (hatModel a w c).og (hatModel a w c).grid (hatModel a w c).c 1 where
  dens := {
    knots := hatAt_ok h
    covers := .refl _
    depth := by simp [hatModel, RTree.depth]
    terms := by simp [hatModel, hatAt]
    coefs := fun i hi => hc i hi
    big := by norm_num
    under := by simp only [hatModel, hatAt]; norm_num }
  cover := hatGridOrder_covers
  depth := hatGridOrder_depth
  points := by simp [hatModel]
  steps j _ := by
    have := h.bounds
    simp only [hatModel]; push_cast
    constructor <;> ring_nf <;> norm_num <;> linarith
  inside j hj := by
    have hj2 : (j:ℝ) ≤ 2 := by exact_mod_cast hj
    have h0 : (0:ℝ) ≤ j := Nat.cast_nonneg j
    have := h.bounds
    exact hatAt_inside h (by simp only [hatModel]; nlinarith) (by simp only [hatModel]; nlinarith)
  nonneg := zero_le_one
  coefs := by norm_num
  err := by simp only [hatModel, hatAt]; norm_num

theorem hatModel_ok {a w : ℝ} (h : HatRange a w) {c : ℕ → ℝ} (hc : ∀ i < 3, |c i| ≤ 1) : (hatModel a w c).OkY (2⁻¹ ^ 23) (2⁻¹ ^ 15) :=
  ⟨3, 2, 1, 1, hatModel_splineOK h hc, by simp only [hatModel, hatAt]; norm_num⟩

theorem hatModel_point {a w : ℝ} (h : HatRange a w) (c : ℕ → ℝ) {x : ℝ} (h1 : a ≤ x) (h2 : x ≤ a + 2 * w) : (hatModel a w c).Point x := ⟨⟨h1, h2⟩, hatAt_inside h h1 h2⟩

theorem exp_unit {e : ℝ} (h : |e| ≤ 1) : 1 / 3 ≤ Real.exp e ∧ Real.exp e ≤ 3 := by
  rw [abs_le] at h
  have e1 := Real.exp_one_lt_d9
  constructor
  · refine le_trans ?_ (Real.exp_le_exp.2 h.1)
    rw [Real.exp_neg, one_div]
    exact inv_anti₀ (Real.exp_pos 1) (by linarith)
  · exact (Real.exp_le_exp.2 h.2).trans (by linarith)

/-- the density of the example: between 1/32 and 32 -/
theorem hatModel_bounds {a w : ℝ} (h : HatRange a w) {c : ℕ → ℝ} (hc : ∀ i < 3, |c i| ≤ 1) {x : ℝ} (h1 : a ≤ x) (h2 : x ≤ a + 2 * w) :
    1 / 32 ≤ (hatModel a w c).density x ∧ (hatModel a w c).density x ≤ 32 := by
  have hb := h.bounds
  have k := hatModel_splineOK h hc
  have ex : ∀ {v : ℝ}, (hatAt a w).Inside v → 1 / 3 ≤ Real.exp ((hatAt a w).expo c v) ∧ Real.exp ((hatAt a w).expo c v) ≤ 3 := by
    intro v hv
    obtain ⟨_, _, _, h3⟩ := binary32_contract.expo k.dens hv
    exact exp_unit h3
  have g0 := ex (k.inside 0 (by simp [hatModel]))
  have g1 := ex (k.inside 1 (by simp [hatModel]))
  have g2 := ex (k.inside 2 (by simp [hatModel]))
  have gx := ex (hatAt_inside h h1 h2)
  have eT : trapz (2 + 1) (fun j => Real.exp ((hatAt a w).expo c ((hatModel a w c).grid j))) (hatModel a w c).grid =
      w / 2 * (Real.exp ((hatAt a w).expo c ((hatModel a w c).grid 0)) + 2 * Real.exp ((hatAt a w).expo c ((hatModel a w c).grid 1)) + Real.exp ((hatAt a w).expo c ((hatModel a w c).grid 2))) := by
    unfold trapz
    simp only [Nat.add_sub_cancel, Finset.sum_range_succ, Finset.sum_range_zero, zero_add]
    have s1 : (hatModel a w c).grid 1 - (hatModel a w c).grid 0 = w := by simp only [hatModel]; push_cast; ring
    have s2 : (hatModel a w c).grid (1 + 1) - (hatModel a w c).grid 1 = w := by simp only [hatModel]; push_cast; ring
    rw [s1, s2]; ring
  have eD : (hatModel a w c).density x = Real.exp ((hatAt a w).expo c x) * (1 / trapz (2 + 1) (fun j => Real.exp ((hatAt a w).expo c ((hatModel a w c).grid j))) (hatModel a w c).grid) := rfl
  rw [eD, eT]
  set T := w / 2 * (Real.exp ((hatAt a w).expo c ((hatModel a w c).grid 0)) + 2 * Real.exp ((hatAt a w).expo c ((hatModel a w c).grid 1)) + Real.exp ((hatAt a w).expo c ((hatModel a w c).grid 2))) with hTdef
  have T1 : 1 / 3 ≤ T := by rw [hTdef]; nlinarith
  have T2 : T ≤ 6 := by rw [hTdef]; nlinarith
  have i1 : 1 / 6 ≤ 1 / T := one_div_le_one_div_of_le (by linarith) T2
  have i2 : 1 / T ≤ 3 := by
    have := one_div_le_one_div_of_le (by norm_num) T1
    norm_num at this ⊢; exact this
  constructor
  · calc (1:ℝ) / 32 ≤ 1 / 3 * (1 / 6) := by norm_num
      _ ≤ _ := mul_le_mul gx.1 i1 (by norm_num) (by linarith)
  · calc _ ≤ (3:ℝ) * 3 := mul_le_mul gx.2 i2 (by linarith) (by norm_num)
      _ ≤ 32 := by norm_num

/-- the model of the example in the logarithm, for mass and redshift -/
def logHatModel (c : ℕ → ℝ) : SplineModel := ⟨4, 12, hatSpline, hatOrder, 2, hatGridOrder, logHatGrid, c⟩

theorem logHatModel_ok {c : ℕ → ℝ} (hc : ∀ i < 3, |c i| ≤ 1) : LogSplineOK binary32 (2⁻¹ ^ 23) (logHatModel c) 3 2 1 1 1 3 :=
  ⟨hatSpline_density hc (by norm_num), hat_steady, by simp [logHatModel, hatSpline], hatGridOrder_covers, hatGridOrder_depth, by simp [logHatModel], logHatGrid_step,
    fun j hj => hat_logPoint (logHatGrid_inside j hj).1 (by have := (logHatGrid_inside j hj).2; show logHatGrid j ≤ 16; linarith), zero_le_one, by norm_num⟩

theorem logHat_exp {c : ℕ → ℝ} (hc : ∀ i < 3, |c i| ≤ 1) (x : ℝ) : 1 / 3 ≤ Real.exp (hatSpline.logExpo c x) ∧ Real.exp (hatSpline.logExpo c x) ≤ 3 :=
  exp_unit (hat_steady.logExpo_le hatSpline_ok zero_le_one hc (by simp [hatSpline]) x)

theorem trapz_logHat (Y : ℕ → ℝ) : trapz (2 + 1) Y logHatGrid = 2 * (Y 0 + 2 * Y 1 + Y 2) := by
  unfold trapz
  simp only [Nat.add_sub_cancel, Finset.sum_range_succ, Finset.sum_range_zero, zero_add, logHatGrid]
  push_cast; ring

theorem logHatModel_bounds {c : ℕ → ℝ} (hc : ∀ i < 3, |c i| ≤ 1) (x : ℝ) : 1 / 128 ≤ (logHatModel c).logDensity x ∧ (logHatModel c).logDensity x ≤ 128 := by
  have eD : (logHatModel c).logDensity x = Real.exp (hatSpline.logExpo c x) * (1 / trapz (2 + 1) (fun j => Real.exp (hatSpline.logExpo c (logHatGrid j))) logHatGrid) := rfl
  rw [eD, trapz_logHat]
  have g0 := logHat_exp hc (logHatGrid 0)
  have g1 := logHat_exp hc (logHatGrid 1)
  have g2 := logHat_exp hc (logHatGrid 2)
  have gx := logHat_exp hc x
  have i1 : 1 / 24 ≤ 1 / (2 * (Real.exp (hatSpline.logExpo c (logHatGrid 0)) + 2 * Real.exp (hatSpline.logExpo c (logHatGrid 1)) + Real.exp (hatSpline.logExpo c (logHatGrid 2)))) :=
    one_div_le_one_div_of_le (by linarith) (by linarith)
  have i2 : 1 / (2 * (Real.exp (hatSpline.logExpo c (logHatGrid 0)) + 2 * Real.exp (hatSpline.logExpo c (logHatGrid 1)) + Real.exp (hatSpline.logExpo c (logHatGrid 2)))) ≤ 1 := by
    rw [div_le_one (by linarith)]; linarith
  constructor
  · calc (1:ℝ) / 128 ≤ 1 / 3 * (1 / 24) := by norm_num
      _ ≤ _ := mul_le_mul gx.1 i1 (by norm_num) (by linarith)
  · calc _ ≤ (3:ℝ) * 1 := mul_le_mul gx.2 i2 (by linarith) (by norm_num)
      _ ≤ 128 := by norm_num

theorem redHat_weight {c : ℕ → ℝ} (hc : ∀ i < 3, |c i| ≤ 1) {z : ℝ} (h1 : 4 ≤ z) (h2 : z ≤ 12) : 1 ≤ splineRedshiftWeight hatSpline c 2 z 1 ∧ splineRedshiftWeight hatSpline c 2 z 1 ≤ 39 := by
  have g := logHat_exp hc z
  unfold splineRedshiftWeight
  rw [show (2:ℝ) - 1 = 1 by norm_num, Real.rpow_one, one_mul]
  constructor <;> nlinarith

/-- the population of the example -/
def hatPop (cm cq ca1 ca2 ct1 ct2 cz : ℕ → ℝ) : SplinePop :=
  ⟨logHatModel cm, hatModel 0 (1 / 2) cq, hatModel 0 (1 / 2) ca1, hatModel 0 (1 / 2) ca2, hatModel (-1) 1 ct1, hatModel (-1) 1 ct2, logHatModel cz, fun _ => 1, 2⟩

theorem hatRange_unit : HatRange 0 (1 / 2) := .inl ⟨rfl, rfl⟩
theorem hatRange_tilt : HatRange (-1) 1 := .inr ⟨rfl, rfl⟩

section
variable {cm cq ca1 ca2 ct1 ct2 cz : ℕ → ℝ} (hcm : ∀ i < 3, |cm i| ≤ 1) (hcq : ∀ i < 3, |cq i| ≤ 1) (hca1 : ∀ i < 3, |ca1 i| ≤ 1) (hca2 : ∀ i < 3, |ca2 i| ≤ 1)
  (hct1 : ∀ i < 3, |ct1 i| ≤ 1) (hct2 : ∀ i < 3, |ct2 i| ≤ 1) (hcz : ∀ i < 3, |cz i| ≤ 1)
include hcm hcq hca1 hca2 hct1 hct2 hcz

theorem hatPop_ok : (hatPop cm cq ca1 ca2 ct1 ct2 cz).OK binary32 (2⁻¹ ^ 23) 3 (2⁻¹ ^ 15) where
  mass := ⟨3, 2, 1, 1, 1, logHatModel_ok hcm, by unfold logSplineErr; simp only [hatPop, logHatModel, hatSpline]; norm_num⟩
  ratio := hatModel_ok hatRange_unit hcq
  a1 := hatModel_ok hatRange_unit hca1
  a2 := hatModel_ok hatRange_unit hca2
  ct1 := hatModel_ok hatRange_tilt hct1
  ct2 := hatModel_ok hatRange_tilt hct2
  red := ⟨⟨3, 2, 1, 1, 1, logHatModel_ok hcz, by unfold splineRedshiftErr logSplineErr; simp only [hatPop, logHatModel, hatSpline]; norm_num⟩,
    fun j hj => hat_redshiftOK (logHatGrid_inside j hj).1 (logHatGrid_inside j hj).2,
    fun j hj => by
      have := redHat_weight hcz (logHatGrid_inside j hj).1 (logHatGrid_inside j hj).2
      exact ⟨le_trans (by norm_num) this.1, this.2.trans (by norm_num)⟩⟩
  small := by norm_num

/-- a sample inside the ranges of the example, volume element one -/
structure HatSample (d : PeakSample) : Prop where
  mass : 4 ≤ d.mass_1 ∧ d.mass_1 ≤ 12
  ratio : 0 ≤ d.mass_ratio ∧ d.mass_ratio ≤ 1
  a1 : 0 ≤ d.a_1 ∧ d.a_1 ≤ 1
  a2 : 0 ≤ d.a_2 ∧ d.a_2 ≤ 1
  ct1 : -1 ≤ d.cos_tilt_1 ∧ d.cos_tilt_1 ≤ 1
  ct2 : -1 ≤ d.cos_tilt_2 ∧ d.cos_tilt_2 ≤ 1
  red : 4 ≤ d.redshift ∧ d.redshift ≤ 12
  vol : d.dVdz = 1

theorem hatPop_bounds {d : PeakSample} (h : HatSample d) :
    ((2⁻¹:ℝ) ^ 12 ≤ (hatPop cm cq ca1 ca2 ct1 ct2 cz).masses d ∧ (hatPop cm cq ca1 ca2 ct1 ct2 cz).masses d ≤ 2 ^ 12) ∧
    ((2⁻¹:ℝ) ^ 12 ≤ (hatPop cm cq ca1 ca2 ct1 ct2 cz).magnitudes d ∧ (hatPop cm cq ca1 ca2 ct1 ct2 cz).magnitudes d ≤ 2 ^ 12) ∧
    ((2⁻¹:ℝ) ^ 12 ≤ (hatPop cm cq ca1 ca2 ct1 ct2 cz).tilts d ∧ (hatPop cm cq ca1 ca2 ct1 ct2 cz).tilts d ≤ 2 ^ 12) ∧
    ((2⁻¹:ℝ) ^ 12 ≤ (hatPop cm cq ca1 ca2 ct1 ct2 cz).redshift d ∧ (hatPop cm cq ca1 ca2 ct1 ct2 cz).redshift d ≤ 2 ^ 12) := by
  have pr : ∀ {x y : ℝ}, 1 / 32 ≤ x ∧ x ≤ 32 → 1 / 128 ≤ y ∧ y ≤ 128 → (2⁻¹:ℝ) ^ 12 ≤ x * y ∧ x * y ≤ 2 ^ 12 := fun hx hy =>
    ⟨le_trans (by norm_num) (mul_le_mul hx.1 hy.1 (by norm_num) (by linarith [hx.1])), (mul_le_mul hx.2 hy.2 (by linarith [hy.1]) (by norm_num)).trans (by norm_num)⟩
  have wd : ∀ {y : ℝ}, 1 / 32 ≤ y ∧ y ≤ 32 → 1 / 128 ≤ y ∧ y ≤ 128 := fun h => ⟨by linarith [h.1], by linarith [h.2]⟩
  have un : ∀ {c : ℕ → ℝ} {x : ℝ}, (∀ i < 3, |c i| ≤ 1) → 0 ≤ x ∧ x ≤ 1 → 1 / 32 ≤ (hatModel 0 (1 / 2) c).density x ∧ (hatModel 0 (1 / 2) c).density x ≤ 32 := fun hc hx =>
    hatModel_bounds hatRange_unit hc hx.1 (by linarith [hx.2])
  have ti : ∀ {c : ℕ → ℝ} {x : ℝ}, (∀ i < 3, |c i| ≤ 1) → -1 ≤ x ∧ x ≤ 1 → 1 / 32 ≤ (hatModel (-1) 1 c).density x ∧ (hatModel (-1) 1 c).density x ≤ 32 := fun hc hx =>
    hatModel_bounds hatRange_tilt hc hx.1 (by linarith [hx.2])
  refine ⟨pr (un hcq h.ratio) (logHatModel_bounds hcm _), pr (un hca1 h.a1) (wd (un hca2 h.a2)), pr (ti hct1 h.ct1) (wd (ti hct2 h.ct2)), ?_⟩
  have e : (hatPop cm cq ca1 ca2 ct1 ct2 cz).redshift d = splineRedshiftWeight hatSpline cz 2 d.redshift 1 / trapz (2 + 1) (fun j => splineRedshiftWeight hatSpline cz 2 (logHatGrid j) 1) logHatGrid := by
    rw [← h.vol]; simp only [SplinePop.redshift, hatPop, logHatModel, h.vol]
  rw [e, trapz_logHat]
  have g0 := redHat_weight hcz (logHatGrid_inside 0 (by norm_num)).1 (logHatGrid_inside 0 (by norm_num)).2
  have g1 := redHat_weight hcz (logHatGrid_inside 1 (by norm_num)).1 (logHatGrid_inside 1 (by norm_num)).2
  have g2 := redHat_weight hcz (logHatGrid_inside 2 (by norm_num)).1 (logHatGrid_inside 2 (by norm_num)).2
  have gx := redHat_weight hcz h.red.1 h.red.2
  constructor
  · rw [le_div_iff₀ (by linarith)]; norm_num; linarith
  · rw [div_le_iff₀ (by linarith)]; norm_num; linarith

theorem hatPop_sample {d : PeakSample} (h : HatSample d)
    (hs : (2⁻¹:ℝ) ^ 122 ≤ (hatPop cm cq ca1 ca2 ct1 ct2 cz).weight d ∧ (hatPop cm cq ca1 ca2 ct1 ct2 cz).weight d ≤ 2 ^ 122) : (hatPop cm cq ca1 ca2 ct1 ct2 cz).SampleOK binary32 3 d := by
  obtain ⟨b1, b2, b3, b4⟩ := hatPop_bounds hcm hcq hca1 hca2 hct1 hct2 hcz h
  have up : ∀ {k : ℕ} {x : ℝ}, k ≤ 48 → (2⁻¹:ℝ) ^ k ≤ x ∧ x ≤ 2 ^ k → (2⁻¹:ℝ) ^ 122 ≤ x ∧ x ≤ 2 ^ 122 := fun hk hx =>
    ⟨(pow_le_pow_of_le_one (by norm_num) (by norm_num) (by omega)).trans hx.1, hx.2.trans (pow_le_pow_right₀ (by norm_num) (by omega))⟩
  have pr : ∀ {k l : ℕ} {x y : ℝ}, (2⁻¹:ℝ) ^ k ≤ x ∧ x ≤ 2 ^ k → (2⁻¹:ℝ) ^ l ≤ y ∧ y ≤ 2 ^ l → (2⁻¹:ℝ) ^ (k + l) ≤ x * y ∧ x * y ≤ 2 ^ (k + l) := fun {k l x y} hx hy => by
    have x0 : 0 ≤ x := le_trans (by positivity) hx.1
    have y0 : 0 ≤ y := le_trans (by positivity) hy.1
    rw [pow_add, pow_add]
    exact ⟨mul_le_mul hx.1 hy.1 (by positivity) x0, mul_le_mul hx.2 hy.2 y0 (by positivity)⟩
  have zw := redHat_weight hcz h.red.1 h.red.2
  exact {
    mass := ⟨h.mass, hat_logPoint h.mass.1 (by linarith [h.mass.2])⟩
    ratio := hatModel_point hatRange_unit _ h.ratio.1 (by linarith [h.ratio.2])
    a1 := hatModel_point hatRange_unit _ h.a1.1 (by linarith [h.a1.2])
    a2 := hatModel_point hatRange_unit _ h.a2.1 (by linarith [h.a2.2])
    ct1 := hatModel_point hatRange_tilt _ h.ct1.1 (by linarith [h.ct1.2])
    ct2 := hatModel_point hatRange_tilt _ h.ct2.1 (by linarith [h.ct2.2])
    zpoint := hat_logPoint h.red.1 (by linarith [h.red.2])
    zrange := by rw [h.vol]; exact hat_redshiftOK h.red.1 h.red.2
    zsize := by rw [h.vol]; exact ⟨le_trans (by norm_num) zw.1, zw.2.trans (by norm_num)⟩
    zle := h.red.2
    mags := up (by norm_num) b2
    tilts := up (by norm_num) b3
    prefixes := ⟨(up (by norm_num) b1).1, (up (by norm_num) b1).2, (up (by norm_num) (pr b1 b2)).1, (up (by norm_num) (pr b1 b2)).2, (up (by norm_num) (pr (pr b1 b2) b3)).1, (up (by norm_num) (pr (pr b1 b2) b3)).2,
      up (by norm_num) (pr (pr (pr b1 b2) b3) b4)⟩
    size := hs }

/-- Single precision, all coefficients of size at most one, every sample inside the ranges, a prior between `2⁻²⁰` and `2²⁰`: the weight is accurate to `2⁻¹¹`. -/
example (d : PeakSample) (h : HatSample d) (hp : (2⁻¹:ℝ) ^ 20 ≤ d.prior ∧ d.prior ≤ 2 ^ 20) :
    ∃ w, splineWeightR binary32 pow32 (hatPop cm cq ca1 ca2 ct1 ct2 cz) d = fin w ∧ Within (2⁻¹ ^ 11) ((hatPop cm cq ca1 ca2 ct1 ct2 cz).weight d) w := by
  have hp0 : 0 < d.prior := lt_of_lt_of_le (by positivity) hp.1
  obtain ⟨b1, b2, b3, b4⟩ := hatPop_bounds hcm hcq hca1 hca2 hct1 hct2 hcz h
  have q : (2⁻¹:ℝ) ^ 48 ≤ (hatPop cm cq ca1 ca2 ct1 ct2 cz).masses d * (hatPop cm cq ca1 ca2 ct1 ct2 cz).magnitudes d * (hatPop cm cq ca1 ca2 ct1 ct2 cz).tilts d * (hatPop cm cq ca1 ca2 ct1 ct2 cz).redshift d ∧
      (hatPop cm cq ca1 ca2 ct1 ct2 cz).masses d * (hatPop cm cq ca1 ca2 ct1 ct2 cz).magnitudes d * (hatPop cm cq ca1 ca2 ct1 ct2 cz).tilts d * (hatPop cm cq ca1 ca2 ct1 ct2 cz).redshift d ≤ 2 ^ 48 := by
    have p : ∀ {x : ℝ}, (2⁻¹:ℝ) ^ 12 ≤ x → 0 ≤ x := fun h => le_trans (by positivity) h
    constructor
    · calc (2⁻¹:ℝ) ^ 48 = 2⁻¹ ^ 12 * 2⁻¹ ^ 12 * 2⁻¹ ^ 12 * 2⁻¹ ^ 12 := by norm_num
        _ ≤ _ := by
          have := p b1.1; have := p b2.1; have := p b3.1
          gcongr
          exacts [b1.1, b2.1, b3.1, b4.1]
    · calc _ ≤ (2:ℝ) ^ 12 * 2 ^ 12 * 2 ^ 12 * 2 ^ 12 := by
            have := p b1.1; have := p b2.1; have := p b3.1; have := p b4.1
            gcongr
            exacts [b1.2, b2.2, b3.2, b4.2]
        _ = 2 ^ 48 := by norm_num
  have hs : (2⁻¹:ℝ) ^ 122 ≤ (hatPop cm cq ca1 ca2 ct1 ct2 cz).weight d ∧ (hatPop cm cq ca1 ca2 ct1 ct2 cz).weight d ≤ 2 ^ 122 := by
    unfold SplinePop.weight
    constructor
    · rw [le_div_iff₀ hp0]
      exact (mul_le_mul_of_nonneg_left hp.2 (by positivity)).trans (le_trans (by norm_num) q.1)
    · rw [div_le_iff₀ hp0]
      exact q.2.trans (le_trans (by norm_num) (mul_le_mul_of_nonneg_left hp.1 (by positivity)))
  obtain ⟨w, ew, ww⟩ := C150_weight binary32_contract pow32_contract (hatPop_ok hcm hcq hca1 hca2 hct1 hct2 hcz) (hatPop_sample hcm hcq hca1 hca2 hct1 hct2 hcz h hs)
  exact ⟨w, ew, ww.mono (by norm_num) (le_trans (by positivity) hs.1)⟩

/-- a sample of mass 13 or 3, beyond the limits 4 and 12, has weight zero -/
example (d : PeakSample) (h : HatSample d) (hs : (hatPop cm cq ca1 ca2 ct1 ct2 cz).weight d = 1) :
    splineWeightR binary32 pow32 (hatPop cm cq ca1 ca2 ct1 ct2 cz) { d with mass_1 := 13 } = fin 0 ∧ splineWeightR binary32 pow32 (hatPop cm cq ca1 ca2 ct1 ct2 cz) { d with mass_1 := 3 } = fin 0 := by
  have hpr : d.prior ≠ 0 := by
    intro h0
    unfold SplinePop.weight at hs
    rw [h0, div_zero] at hs
    norm_num at hs
  have k := fun x => C150_outside binary32_contract pow32_contract (hatPop_ok hcm hcq hca1 hca2 hct1 hct2 hcz) (hatPop_sample hcm hcq hca1 hca2 hct1 hct2 hcz h (by rw [hs]; norm_num)) hpr x
  exact ⟨(k 13).1 (.inr (by simp only [hatPop, logHatModel]; norm_num)), (k 3).1 (.inl (by simp only [hatPop, logHatModel]; norm_num))⟩

/-- The whole computation in single precision: one event with two samples, four of eight injections found, all of them anywhere inside the ranges, the prior of each equal to its density, all coefficients of size at
most one, the cut on the effective numbers in force.  The log-likelihood comes out within a fiftieth of `log 2`. -/
example (pe : Fin 1 → Fin 2 → PeakSample) (inj : Fin 4 → PeakSample) (hpe : ∀ e i, HatSample (pe e i)) (hinj : ∀ i, HatSample (inj i))
    (ppe : ∀ e i, (hatPop cm cq ca1 ca2 ct1 ct2 cz).weight (pe e i) = 1) (pinj : ∀ i, (hatPop cm cq ca1 ca2 ct1 ct2 cz).weight (inj i) = 1) :
    ∃ L' : ℝ, logLikelihoodR binary32 ⟨fun _ => .node (.leaf 0) (.leaf 1), fun _ => .node (.leaf 0) (.leaf 1), .node (.node (.leaf 0) (.leaf 1)) (.node (.leaf 2) (.leaf 3)),
        .node (.node (.leaf 0) (.leaf 1)) (.node (.leaf 2) (.leaf 3)), .leaf 0, .leaf 0⟩ ({ marginalize_selection := false } : Flags)
        (fun e i => splineWeightR binary32 pow32 (hatPop cm cq ca1 ca2 ct1 ct2 cz) (pe e i)) (fun i => splineWeightR binary32 pow32 (hatPop cm cq ca1 ca2 ct1 ct2 cz) (inj i)) 8 1 = fin L' ∧
      |L' - Real.log 2| ≤ 1 / 50 := by
  have he : ∀ x : ℝ, x ≤ 1 / 2 → Real.exp x < 2 := by
    intro x hx
    have h1 : Real.exp x ≤ Real.exp (1 / 2) := Real.exp_le_exp.2 hx
    have h2 : Real.exp (1 / 2) ^ 2 = Real.exp 1 := by rw [← Real.exp_nat_mul]; norm_num
    have h3 := Real.exp_one_lt_d9
    have h4 : Real.exp (1 / 2) < 2 := by
      by_contra h
      push Not at h
      have := pow_le_pow_left₀ (by norm_num) h 2
      rw [h2] at this; norm_num at this; linarith
    linarith
  have hk : kish (fun _ : Fin 2 => (1:ℝ)) = 2 := by norm_num [kish]
  have hr : relVar (fun _ : Fin 4 => (1:ℝ)) 8 = 1 / 8 := by norm_num [relVar]
  obtain ⟨L, L', eL, eL', hL⟩ := C150_likelihood (Ne := 1) (N := 2) (M := 4) (Dl := 2) (T := 2⁻¹ ^ 23 * 2 + 2⁻¹ ^ 23) (K := 1) binary32_contract pow32_contract (hatPop_ok hcm hcq hca1 hca2 hct1 hct2 hcz)
    ⟨by norm_num, by norm_num⟩ (by norm_num)
    ⟨fun _ => .node (.leaf 0) (.leaf 1), fun _ => .node (.leaf 0) (.leaf 1), .node (.node (.leaf 0) (.leaf 1)) (.node (.leaf 2) (.leaf 3)),
        .node (.node (.leaf 0) (.leaf 1)) (.node (.leaf 2) (.leaf 3)), .leaf 0, .leaf 0⟩ ⟨fun _ => .refl _, fun _ => .refl _, .refl _, .refl _, .refl _, .refl _⟩
    ⟨fun _ => by simp [RTree.depth], fun _ => by simp [RTree.depth], by simp [RTree.depth], by simp [RTree.depth], by simp [RTree.depth], by simp [RTree.depth]⟩
    ({ marginalize_selection := false } : Flags) rfl pe inj
    (fun e i => hatPop_sample hcm hcq hca1 hca2 hct1 hct2 hcz (hpe e i) (by rw [ppe]; norm_num)) (fun i => hatPop_sample hcm hcq hca1 hca2 hct1 hct2 hcz (hinj i) (by rw [pinj]; norm_num)) 8 1
    (by
      simp only [ppe, pinj]
      refine ⟨by norm_num, by norm_num, by norm_num, by norm_num, by norm_num, fun _ => ⟨fun _ => zero_le_one, 0, fun _ => le_rfl, one_pos, by norm_num⟩, fun _ => by norm_num,
        ⟨fun _ => zero_le_one, 0, fun _ => le_rfl, one_pos, by norm_num⟩, fun _ => ⟨fun _ => ?_, ?_⟩, fun h => by simp at h⟩
      · rw [hk]
        have := he ((800 + 8 * 1) * (2⁻¹ ^ 23 * 2 + 2⁻¹ ^ 23) + 4 * (4 * (2 * 2⁻¹ ^ 15 + 4 * 2⁻¹ ^ 23))) (by norm_num)
        push_cast; linarith
      · rw [hr]
        have := he (2900 * (2⁻¹ ^ 23 * 2 + 2⁻¹ ^ 23) + 16 * (4 * (2 * 2⁻¹ ^ 15 + 4 * 2⁻¹ ^ 23))) (by norm_num)
        push_cast; linarith)
    1 (some 1) 1 (by simp [Flags.ok]) (by simp)
  have eL0 := C47_value (E := 1) (N := 2) (M := 4) ({ marginalize_selection := false } : Flags) (fun _ _ => 1) (fun _ => 1) 8 1 1 (some 1) 1 none (by simp [Flags.ok]) (by simp) (by norm_num) le_rfl
    (fun _ _ => zero_le_one) (fun _ => ⟨0, one_pos⟩) (fun _ => zero_le_one) ⟨0, one_pos⟩ (by norm_num) (fun _ => ⟨fun _ => by rw [hk]; norm_num, by rw [hr]; norm_num⟩) (fun h => by simp at h)
  simp only [ppe, pinj] at eL
  simp only [encode, Bool.false_eq_true, if_false] at eL0
  have : L = Real.log 2 := by
    rw [eL0] at eL
    simp [mean] at eL
    rw [← eL, show (4:ℝ) / 8 = 2⁻¹ by norm_num, Real.log_inv, neg_neg]
  refine ⟨L', eL', ?_⟩
  rw [← this]
  refine hL.trans ?_
  norm_num

end

end GW
end
