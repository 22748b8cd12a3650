import Verif.Model.ExampleMain
import Verif.Props.Packaging
import Verif.Props.Plot
import Verif.Props.Postprocess
import Verif.Props.RunFiles

/-!
# C123: the examples save their curves, C124: and which of them are densities
-/

open Finset
noncomputable section
open Classical
namespace GW
open _root_.F

/-! ### specification -/

/-- The dataset stores, under `<key>_pdfs`, one row per draw and one column per grid point, with the values `f d j`. -/
def StoresCurve (ds : Dataset) (key : String) (n w : ℕ) (f : ℕ → ℕ → F) : Prop :=
  ∃ v, ds.vars.get? (key ++ "_pdfs") = some (["draw", key], v) ∧ v.shape = [n, w] ∧ ∀ d < n, ∀ j < w, v.get [d, j] = f d j

/-- The dataset stores the grid `x` as the coordinate `key`. -/
def StoresGrid (ds : Dataset) (key : String) (w : ℕ) (x : ℕ → ℝ) : Prop :=
  ∃ v, ds.coords.get? key = some ([key], v) ∧ v.shape = [w] ∧ ∀ j < w, v.get [j] = fin (x j)

/-- the seven figures of a run, in the order in which they are written -/
def figureFiles (a : RunArgs) : List String := [
  runDir a ++ "/mass_pdf_" ++ runLabel a ++ ".png", runDir a ++ "/mass_ratio_pdf_" ++ runLabel a ++ ".png",
  runDir a ++ "/spin_mag1_pdf_" ++ runLabel a ++ ".png", runDir a ++ "/cos_tilt1_pdf_" ++ runLabel a ++ ".png",
  runDir a ++ "/spin_mag2_pdf_" ++ runLabel a ++ ".png", runDir a ++ "/cos_tilt2_pdf_" ++ runLabel a ++ ".png",
  runDir a ++ "/redshift_pdf_" ++ runLabel a ++ ".png"]

/-- a scalar quantity with `n` draws `x 0, x 1, …` -/
def HasScalar (post : Dataset) (n : ℕ) (k : String) (x : ℕ → ℝ) : Prop :=
  ∃ dims v, post.vars.get? k = some (dims, v) ∧ v.shape = [n] ∧ ∀ d, v.get [d] = fin (x d)

/-- `w` coefficients per draw, `n` draws -/
def HasCoefs (post : Dataset) (n w : ℕ) (k : String) (x : ℕ → ℕ → ℝ) : Prop :=
  ∃ dims v, post.vars.get? k = some (dims, v) ∧ v.shape = [n, w] ∧ ∀ d i, v.get [d, i] = fin (x d i)

/-! ### the tail of a run -/

/-- all curves have `n ≥ 1` rows over their grids -/
structure ExampleCurves.Fits (c : ExampleCurves) (n : ℕ) : Prop where
  pos : 0 < n
  mass : c.mass.rows.length = n ∧ c.mass.width = c.m1s.length
  ratio : c.ratio.rows.length = n ∧ c.ratio.width = c.qs.length
  mag1 : c.mag1.rows.length = n ∧ c.mag1.width = c.mags.length
  mag2 : c.mag2.rows.length = n ∧ c.mag2.width = c.mags.length
  tilt1 : c.tilt1.rows.length = n ∧ c.tilt1.width = c.tilts.length
  tilt2 : c.tilt2.rows.length = n ∧ c.tilt2.width = c.tilts.length
  rate : c.rate.rows.length = n ∧ c.rate.width = c.zs.length

theorem drawable_one {x : List ℝ} {p : Curves} {n : ℕ} (hn : 0 < n) (h : p.rows.length = n ∧ p.width = x.length) : Drawable x [p] := by
  intro q hq
  rw [List.mem_singleton.1 hq]
  exact ⟨fun e => by rw [e] at h; simp at h; omega, h.2⟩

/-- what the plotting part writes, and how the run goes on -/
theorem exampleTail_eq (name : String) (a : RunArgs) (save : Bool) (c : ExampleCurves) {n : ℕ} (h : c.Fits n) :
    ∃ figs : List (List Drawn), figs.length = 7 ∧
      (∃ f1 f2 f3 f4 f5 f6 f7, figs = [f1, f2, f3, f4, f5, f6, [f7]] ∧
        ShowsAll f1 c.m1s [c.mass] [name] ["tab:blue"] ∧ ShowsAll f2 c.qs [c.ratio] [name] ["tab:blue"] ∧
        ShowsAll f3 c.mags [c.mag1] [name] ["tab:blue"] ∧ ShowsAll f4 c.tilts [c.tilt1] [name] ["tab:blue"] ∧
        ShowsAll f5 c.mags [c.mag2] [name] ["tab:blue"] ∧ ShowsAll f6 c.tilts [c.tilt2] [name] ["tab:blue"] ∧
        plot_pdf c.zs c.rate "redshift" "blue" true = .ok f7) ∧
      exampleTail name a save c =
        ((if save then (figureFiles a).zip (figs.map Out.figure) else []) ++
          (match (pdf_dict_to_xarray c.pdfDict c.paramDict a.samples.toNat).2 with | .error _ => [] | .ok ds => [(pdfsFile a, .curves ds)]),
         (match (pdf_dict_to_xarray c.pdfDict c.paramDict a.samples.toNat).2 with | .error e => .error e | .ok _ => .ok ())) := by
  obtain ⟨f1, f2, s1, s2, e1⟩ := C95_mass_partial [c.mass] [c.ratio] c.m1s c.qs [name] ["tab:blue"] (runLabel a) (runDir a) save
    (drawable_one h.pos h.mass) (drawable_one h.pos h.ratio) rfl le_rfl le_rfl
  obtain ⟨f3, f4, s3, s4, e2⟩ := C95_spin_partial [c.mag1] [c.tilt1] c.mags c.tilts [name] ["tab:blue"] (runLabel a) (runDir a) save false
    (drawable_one h.pos h.mag1) (drawable_one h.pos h.tilt1) le_rfl le_rfl le_rfl le_rfl
  obtain ⟨f5, f6, s5, s6, e3⟩ := C95_spin_partial [c.mag2] [c.tilt2] c.mags c.tilts [name] ["tab:blue"] (runLabel a) (runDir a) save true
    (drawable_one h.pos h.mag2) (drawable_one h.pos h.tilt2) le_rfl le_rfl le_rfl le_rfl
  obtain ⟨f7, s7, e4⟩ := C95_rate c.rate c.zs (runLabel a) (runDir a) save (drawable_one h.pos h.rate)
  refine ⟨[f1, f2, f3, f4, f5, f6, [f7]], rfl, ⟨f1, f2, f3, f4, f5, f6, f7, rfl, s1, s2, s3, s4, s5, s6, s7⟩, ?_⟩
  unfold exampleTail
  rw [e1, e2, e3, e4]
  cases save <;> rcases (pdf_dict_to_xarray c.pdfDict c.paramDict a.samples.toNat).2 with e | ds <;>
    simp [Run.andThen, Run.ofSaved, figureFiles]

theorem Fits.onGrids {c : ExampleCurves} {n : ℕ} (h : c.Fits n) : OnGrids c.pdfDict c.paramDict n := by
  refine ⟨?_, by simp [ExampleCurves.paramDict, PyDict.keys], by simp [ExampleCurves.paramDict, PyDict.keys], ?_⟩
  · intro p hp
    simp only [ExampleCurves.pdfDict, List.mem_cons, List.not_mem_nil, or_false] at hp
    rcases hp with rfl | rfl | rfl | rfl | rfl | rfl | rfl
    · exact ⟨gridArr c.mags, _, rfl, rfl, by simp [Curves.toArr, h.mag1]⟩
    · exact ⟨gridArr c.tilts, _, by simp [ExampleCurves.paramDict, PyDict.get?], rfl, by simp [Curves.toArr, h.tilt1]⟩
    · exact ⟨gridArr c.mags, _, by simp [ExampleCurves.paramDict, PyDict.get?], rfl, by simp [Curves.toArr, h.mag2]⟩
    · exact ⟨gridArr c.tilts, _, by simp [ExampleCurves.paramDict, PyDict.get?], rfl, by simp [Curves.toArr, h.tilt2]⟩
    · exact ⟨gridArr c.m1s, _, by simp [ExampleCurves.paramDict, PyDict.get?], rfl, by simp [Curves.toArr, h.mass]⟩
    · exact ⟨gridArr c.qs, _, by simp [ExampleCurves.paramDict, PyDict.get?], rfl, by simp [Curves.toArr, h.ratio]⟩
    · exact ⟨gridArr c.zs, _, by simp [ExampleCurves.paramDict, PyDict.get?], rfl, by simp [Curves.toArr, h.rate]⟩
  · intro p hp
    simp only [ExampleCurves.paramDict, List.mem_cons, List.not_mem_nil, or_false] at hp
    rcases hp with rfl | rfl | rfl | rfl | rfl | rfl | rfl <;> exact ⟨_, rfl⟩

/-- with as many draws as `--samples`, the curves are packed -/
theorem Fits.packs {c : ExampleCurves} {n : ℕ} (h : c.Fits n) :
    ∃ ds, (pdf_dict_to_xarray c.pdfDict c.paramDict n).2 = .ok ds ∧
      (∀ k v, c.pdfDict.get? k = some v → ds.vars.get? (k ++ "_pdfs") = some (["draw", k], v)) ∧
      (∀ k v, c.paramDict.get? k = some v → ds.coords.get? k = some ([k], v)) := by
  obtain ⟨-, ds, h1, -, h2, h3⟩ := C71_curves c.pdfDict c.paramDict n (by simp [ExampleCurves.pdfDict, PyDict.keys]) (Fits.onGrids h)
    (by simp [ExampleCurves.pdfDict, ExampleCurves.paramDict, PyDict.keys])
  exact ⟨ds, h1, h2, h3⟩

/-- with another number of draws, they are refused -/
theorem Fits.refused {c : ExampleCurves} {n m : ℕ} (h : c.Fits n) (hm : n ≠ m) :
    (pdf_dict_to_xarray c.pdfDict c.paramDict m).2 = .error .valueError :=
  C71_wrong_draw_count c.pdfDict c.paramDict m n "a1" c.mag1.toArr [c.mag1.width] (by simp [ExampleCurves.pdfDict, PyDict.keys])
    (by simp [ExampleCurves.pdfDict]) (by simp [Curves.toArr, h.mag1.1]) hm

/-! ### what a run should leave behind -/

/-- the curves of every draw and their grids: 800 points each, 1000 for the redshift -/
structure CurveSet where
  m1s : ℕ → ℝ
  qs : ℕ → ℝ
  zs : ℕ → ℝ
  mass : ℕ → ℕ → F
  ratio : ℕ → ℕ → F
  mag1 : ℕ → ℕ → F
  mag2 : ℕ → ℕ → F
  tilt1 : ℕ → ℕ → F
  tilt2 : ℕ → ℕ → F
  rate : ℕ → ℕ → F

/-- the dataset holds all seven curves of `n` draws, each over its grid -/
def CurveSet.StoredIn (S : CurveSet) (ds : Dataset) (n : ℕ) : Prop :=
  (StoresCurve ds "mass_1" n 800 S.mass ∧ StoresGrid ds "mass_1" 800 S.m1s) ∧
  (StoresCurve ds "mass_ratio" n 800 S.ratio ∧ StoresGrid ds "mass_ratio" 800 S.qs) ∧
  (StoresCurve ds "a1" n 800 S.mag1 ∧ StoresGrid ds "a1" 800 (linspace 0 1 800).get) ∧
  (StoresCurve ds "a2" n 800 S.mag2 ∧ StoresGrid ds "a2" 800 (linspace 0 1 800).get) ∧
  (StoresCurve ds "cos_tilt1" n 800 S.tilt1 ∧ StoresGrid ds "cos_tilt1" 800 (linspace (-1) 1 800).get) ∧
  (StoresCurve ds "cos_tilt2" n 800 S.tilt2 ∧ StoresGrid ds "cos_tilt2" 800 (linspace (-1) 1 800).get) ∧
  (StoresCurve ds "redshift" n 1000 S.rate ∧ StoresGrid ds "redshift" 1000 S.zs)

/-- figure `f` shows the band of the `n` curves `p` over the 800 points `x` -/
def ShowsBand (f : List Drawn) (n : ℕ) (x : ℕ → ℝ) (p : ℕ → ℕ → F) (name : String) : Prop :=
  ShowsAll f (pointsOf 800 x) [rowsOf n 800 p] [name] ["tab:blue"]

/-- the seven figures show the seven curves -/
def CurveSet.DrawnOn (S : CurveSet) (figs : List (List Drawn)) (n : ℕ) (name : String) : Prop :=
  ∃ f1 f2 f3 f4 f5 f6 f7, figs = [f1, f2, f3, f4, f5, f6, [f7]] ∧
    ShowsBand f1 n S.m1s S.mass name ∧ ShowsBand f2 n S.qs S.ratio name ∧
    ShowsBand f3 n (linspace 0 1 800).get S.mag1 name ∧ ShowsBand f4 n (linspace (-1) 1 800).get S.tilt1 name ∧
    ShowsBand f5 n (linspace 0 1 800).get S.mag2 name ∧ ShowsBand f6 n (linspace (-1) 1 800).get S.tilt2 name ∧
    plot_pdf (pointsOf 1000 S.zs) (rowsOf n 1000 S.rate) "redshift" "blue" true = .ok f7

/-- the local variables of `main` holding them -/
def CurveSet.locals (S : CurveSet) (n : ℕ) : ExampleCurves :=
  { m1s := pointsOf 800 S.m1s, qs := pointsOf 800 S.qs, mags := pointsOf 800 (linspace 0 1 800).get
    tilts := pointsOf 800 (linspace (-1) 1 800).get, zs := pointsOf 1000 S.zs
    mass := rowsOf n 800 S.mass, ratio := rowsOf n 800 S.ratio, mag1 := rowsOf n 800 S.mag1, mag2 := rowsOf n 800 S.mag2
    tilt1 := rowsOf n 800 S.tilt1, tilt2 := rowsOf n 800 S.tilt2, rate := rowsOf n 1000 S.rate }

theorem CurveSet.fits (S : CurveSet) {n : ℕ} (hn : 0 < n) : (S.locals n).Fits n := by
  constructor <;> simp [CurveSet.locals, rowsOf, pointsOf, hn]

theorem storesCurve_of {ds : Dataset} {key : String} {n w : ℕ} {f : ℕ → ℕ → F}
    (h : ds.vars.get? (key ++ "_pdfs") = some (["draw", key], (rowsOf n w f).toArr)) : StoresCurve ds key n w f := by
  refine ⟨_, h, by simp [Curves.toArr, rowsOf], fun d hd j hj => ?_⟩
  simp [Curves.toArr, rowsOf, hd]

theorem storesGrid_of {ds : Dataset} {key : String} {w : ℕ} {x : ℕ → ℝ}
    (h : ds.coords.get? key = some ([key], gridArr (pointsOf w x))) : StoresGrid ds key w x := by
  refine ⟨_, h, by simp [gridArr, pointsOf], fun j hj => ?_⟩
  simp [gridArr, pointsOf, hj]

theorem CurveSet.storedIn_of {S : CurveSet} {n : ℕ} {ds : Dataset}
    (h2 : ∀ k v, (S.locals n).pdfDict.get? k = some v → ds.vars.get? (k ++ "_pdfs") = some (["draw", k], v))
    (h3 : ∀ k v, (S.locals n).paramDict.get? k = some v → ds.coords.get? k = some ([k], v)) : S.StoredIn ds n := by
  refine ⟨⟨storesCurve_of (h2 _ _ ?_), storesGrid_of (h3 _ _ ?_)⟩, ⟨storesCurve_of (h2 _ _ ?_), storesGrid_of (h3 _ _ ?_)⟩,
    ⟨storesCurve_of (h2 _ _ ?_), storesGrid_of (h3 _ _ ?_)⟩, ⟨storesCurve_of (h2 _ _ ?_), storesGrid_of (h3 _ _ ?_)⟩,
    ⟨storesCurve_of (h2 _ _ ?_), storesGrid_of (h3 _ _ ?_)⟩, ⟨storesCurve_of (h2 _ _ ?_), storesGrid_of (h3 _ _ ?_)⟩,
    ⟨storesCurve_of (h2 _ _ ?_), storesGrid_of (h3 _ _ ?_)⟩⟩ <;>
  simp [ExampleCurves.pdfDict, ExampleCurves.paramDict, CurveSet.locals, PyDict.get?]

/-- **Core.**  Once the posterior is there, the run saves everything if there are as many draws as `--samples` … -/
theorem main_saves {name : String} {compute : Dataset → Except PyErr ExampleCurves} {a : RunArgs} {save skip : Bool}
    {stored : Option Dataset} {draws : PyDict NdArr} {first : List (String × Out)} {post : Dataset} {n : ℕ} (S : CurveSet)
    (hp : examplePosterior a skip stored draws = (first, .ok post)) (hc : compute post = .ok (S.locals n)) (hn : 0 < n)
    (hs : a.samples = n) :
    ∃ ds figs, exampleMain name compute a save skip stored draws =
        (first ++ (if save then (figureFiles a).zip (figs.map Out.figure) else []) ++ [(pdfsFile a, .curves ds)], .ok ()) ∧
      S.StoredIn ds n ∧ S.DrawnOn figs n name := by
  obtain ⟨figs, -, hf, e⟩ := exampleTail_eq name a save (S.locals n) (S.fits hn)
  obtain ⟨ds, h1, h2, h3⟩ := Fits.packs (S.fits hn)
  have e2 : a.samples.toNat = n := by omega
  refine ⟨ds, figs, ?_, CurveSet.storedIn_of h2 h3, by simpa only [CurveSet.DrawnOn, ShowsBand, CurveSet.locals] using hf⟩
  rw [e2, h1] at e
  simp only [exampleMain, hp, Run.andThen, hc, e]
  simp

/-- … and otherwise ends with a `ValueError` after the plots. -/
theorem main_refuses {name : String} {compute : Dataset → Except PyErr ExampleCurves} {a : RunArgs} {save skip : Bool}
    {stored : Option Dataset} {draws : PyDict NdArr} {first : List (String × Out)} {post : Dataset} {n : ℕ} (S : CurveSet)
    (hp : examplePosterior a skip stored draws = (first, .ok post)) (hc : compute post = .ok (S.locals n)) (hn : 0 < n)
    (hs : a.samples ≠ n) :
    ∃ figs, exampleMain name compute a save skip stored draws =
        (first ++ (if save then (figureFiles a).zip (figs.map Out.figure) else []), .error .valueError) ∧ S.DrawnOn figs n name := by
  obtain ⟨figs, -, hf, e⟩ := exampleTail_eq name a save (S.locals n) (S.fits hn)
  have h1 := Fits.refused (m := a.samples.toNat) (S.fits hn) (by omega)
  refine ⟨figs, ?_, by simpa only [CurveSet.DrawnOn, ShowsBand, CurveSet.locals] using hf⟩
  rw [h1] at e
  simp only [exampleMain, hp, Run.andThen, hc, e]
  simp

/-- the sampler's draws are packed and written -/
theorem posterior_sampled {a : RunArgs} {draws : PyDict NdArr} {stored : Option Dataset} {n : ℕ} (hk : draws.keys.Nodup)
    (hd : ∀ p ∈ draws, PerDraw n p.2) :
    ∃ post, examplePosterior a false stored draws = ([(posteriorFile a, .posterior post)], .ok post) ∧
      ∀ k v, draws.get? k = some v → ∃ dims, post.vars.get? k = some (dims, v) := by
  have h := C71_posterior_partial n draws hk hd
  refine ⟨_, by unfold examplePosterior; rw [if_neg (by simp)]; change (match (posterior_dict_to_xarray (plain draws)).2 with
    | .error e => _ | .ok d => _) = _; rw [h], fun k v hv => ⟨drawDims k v, ?_⟩⟩
  have := get?_map (fun p : String × NdArr => (drawDims p.1 p.2, p.2)) id draws Function.injective_id k
  simp only [id] at this
  rw [this, hv]; rfl

/-! ### the two examples -/

theorem siteOf_ok {post : Dataset} {k : String} {dims : List String} {v : NdArr} (h : post.vars.get? k = some (dims, v)) :
    siteOf post k = .ok v := by simp [siteOf, h]

theorem scalarSite_ok {post : Dataset} {n : ℕ} {k : String} {x : ℕ → ℝ} (h : HasScalar post n k x) : scalarSite post n k = .ok x := by
  obtain ⟨dims, v, h1, h2, h3⟩ := h
  simp [scalarSite, siteOf_ok h1, bind, Except.bind, h2, h3]

theorem coefSite_ok {post : Dataset} {n w : ℕ} {k : String} {x : ℕ → ℕ → ℝ} (h : HasCoefs post n w k x) : coefSite post n w k = .ok x := by
  obtain ⟨dims, v, h1, h2, h3⟩ := h
  simp [coefSite, siteOf_ok h1, bind, Except.bind, h2, h3]

theorem drawsIn_scalar {post : Dataset} {n : ℕ} {k : String} {x : ℕ → ℝ} (h : HasScalar post n k x) : drawsIn post k = .ok n := by
  obtain ⟨dims, v, h1, h2, h3⟩ := h
  simp [drawsIn, siteOf_ok h1, bind, Except.bind, h2]

theorem drawsIn_coefs {post : Dataset} {n w : ℕ} {k : String} {x : ℕ → ℕ → ℝ} (h : HasCoefs post n w k x) : drawsIn post k = .ok n := by
  obtain ⟨dims, v, h1, h2, h3⟩ := h
  simp [drawsIn, siteOf_ok h1, bind, Except.bind, h2]

/-- the quantities the power-law-plus-peak example reads back from its posterior -/
def plpeakSites : List String := ["alpha", "beta", "mu_peak", "sig_peak", "lambda_m", "alpha_a1", "beta_a1", "alpha_a2", "beta_a2",
  "sig_ct1", "lambda_ct1", "sig_ct2", "lambda_ct2", "lamb", "rate"]

/-- the curves of the power-law-plus-peak example for the draws `x` -/
def plpeakSet (zm : ZModel) (mmin mmax : ℝ) (x : String → ℕ → ℝ) : CurveSet where
  m1s := (linspace mmin mmax 800).get
  qs := (linspace (mmin / mmax) 1 800).get
  zs := zm.zs.get
  mass := fun d => (plpeakMassPPDs (x "alpha") (x "beta") (x "mu_peak") (x "sig_peak") (x "lambda_m") mmin mmax none none d).1
  ratio := fun d => (plpeakMassPPDs (x "alpha") (x "beta") (x "mu_peak") (x "sig_peak") (x "lambda_m") mmin mmax none none d).2
  mag1 := betaSpinPPD (x "alpha_a1") (x "beta_a1") 1 none none
  mag2 := betaSpinPPD (x "alpha_a2") (x "beta_a2") 1 none none
  tilt1 := mixtureTiltPPD (x "sig_ct1") (x "lambda_ct1") none none
  tilt2 := mixtureTiltPPD (x "sig_ct2") (x "lambda_ct2") none none
  rate := powerlawRate zm (x "lamb") (x "rate") none

theorem plpeak_curves {zm : ZModel} {mmin mmax : ℝ} {post : Dataset} {n : ℕ} {x : String → ℕ → ℝ}
    (h : ∀ k ∈ plpeakSites, HasScalar post n k (x k)) : plpeakExampleCurves zm mmin mmax post = .ok ((plpeakSet zm mmin mmax x).locals n) := by
  have hs : ∀ k ∈ plpeakSites, scalarSite post n k = .ok (x k) := fun k hk => scalarSite_ok (h k hk)
  simp only [plpeakSites, List.mem_cons, List.not_mem_nil, or_false, forall_eq_or_imp, forall_eq] at hs
  obtain ⟨h1, h2, h3, h4, h5, h6, h7, h8, h9, h10, h11, h12, h13, h14, h15⟩ := hs
  unfold plpeakExampleCurves
  rw [drawsIn_scalar (h "alpha" (by simp [plpeakSites]))]
  simp only [bind, Except.bind, h1, h2, h3, h4, h5, h6, h7, h8, h9, h10, h11, h12, h13, h14, h15]
  rfl

/-- **C123, partial** (missing: other numbers of draws, see `C123_plpeak_draw_count_fails`).  Post-processing a stored posterior that has
as many draws as `--samples`: the run completes and writes the seven figures (with `--save-plots`) and then the dataset with the seven
curves of every draw. -/
theorem C123_plpeak_partial (zm : ZModel) (a : RunArgs) (save : Bool) (post : Dataset) (draws : PyDict NdArr) (n : ℕ) (x : String → ℕ → ℝ)
    (h : ∀ k ∈ plpeakSites, HasScalar post n k (x k)) (hn : 0 < n) (hs : a.samples = n) :
    ∃ ds figs, plpeakMain zm a save true (some post) draws =
        ((if save then (figureFiles a).zip (figs.map Out.figure) else []) ++ [(pdfsFile a, .curves ds)], .ok ()) ∧
      (plpeakSet zm a.mmin a.mmax x).StoredIn ds n ∧ (plpeakSet zm a.mmin a.mmax x).DrawnOn figs n "PowerlawPeak" :=
  main_saves (first := []) _ rfl (plpeak_curves h) hn hs

/-- **C123 is false** when the posterior has another number of draws than `--samples`: the figures are written, then the run ends with a
`ValueError` and the curves are not saved. -/
theorem C123_plpeak_draw_count_fails (zm : ZModel) (a : RunArgs) (save : Bool) (post : Dataset) (draws : PyDict NdArr) (n : ℕ)
    (x : String → ℕ → ℝ) (h : ∀ k ∈ plpeakSites, HasScalar post n k (x k)) (hn : 0 < n) (hs : a.samples ≠ n) :
    ∃ figs, plpeakMain zm a save true (some post) draws =
        (if save then (figureFiles a).zip (figs.map Out.figure) else [], .error .valueError) ∧
      (plpeakSet zm a.mmin a.mmax x).DrawnOn figs n "PowerlawPeak" :=
  main_refuses (first := []) _ rfl (plpeak_curves h) hn hs

/-- the sampler's draws of the quantities `x` -/
def DrawnScalar (draws : PyDict NdArr) (n : ℕ) (k : String) (x : ℕ → ℝ) : Prop :=
  ∃ v, draws.get? k = some v ∧ v.shape = [n] ∧ ∀ d, v.get [d] = fin (x d)

/-- the sampler's draws of the coefficients `x` -/
def DrawnCoefs (draws : PyDict NdArr) (n w : ℕ) (k : String) (x : ℕ → ℕ → ℝ) : Prop :=
  ∃ v, draws.get? k = some v ∧ v.shape = [n, w] ∧ ∀ d i, v.get [d, i] = fin (x d i)

/-- The output of a sampler run with `--chains` chains of `--samples` draws: the chains are concatenated. -/
structure SampledBy (a : RunArgs) (draws : PyDict NdArr) : Prop where
  chains : 0 < a.chains
  samples : 0 < a.samples
  nodup : draws.keys.Nodup
  rows : ∀ p ∈ draws, PerDraw (a.chains * a.samples).toNat p.2

theorem SampledBy.pos {a : RunArgs} {draws : PyDict NdArr} (h : SampledBy a draws) : 0 < (a.chains * a.samples).toNat := by
  have := mul_pos h.chains h.samples
  omega

/-- **C123, partial.**  With one chain a run that samples saves the posterior, the figures and the curves. -/
theorem C123_plpeak_sampled_partial (zm : ZModel) (a : RunArgs) (save : Bool) (stored : Option Dataset) (draws : PyDict NdArr)
    (x : String → ℕ → ℝ) (hd : SampledBy a draws) (h : ∀ k ∈ plpeakSites, DrawnScalar draws a.samples.toNat k (x k)) (h1 : a.chains = 1) :
    ∃ post ds figs, plpeakMain zm a save false stored draws =
        ((posteriorFile a, .posterior post) :: (if save then (figureFiles a).zip (figs.map Out.figure) else []) ++ [(pdfsFile a, .curves ds)],
          .ok ()) ∧
      (∀ k v, draws.get? k = some v → ∃ dims, post.vars.get? k = some (dims, v)) ∧
      (plpeakSet zm a.mmin a.mmax x).StoredIn ds a.samples.toNat ∧
      (plpeakSet zm a.mmin a.mmax x).DrawnOn figs a.samples.toNat "PowerlawPeak" := by
  have hr := hd.rows
  rw [h1, one_mul] at hr
  obtain ⟨post, hp, hg⟩ := posterior_sampled (a := a) (stored := stored) hd.nodup hr
  have hs := hd.samples
  obtain ⟨ds, figs, e, h2, h3⟩ := main_saves (name := "PowerlawPeak") (save := save) (compute := plpeakExampleCurves zm a.mmin a.mmax) _ hp
    (plpeak_curves (x := x) fun k hk => by
      obtain ⟨v, hv, h4, h5⟩ := h k hk
      obtain ⟨dims, h6⟩ := hg k v hv
      exact ⟨dims, v, h6, h4, h5⟩) (by omega) (by omega)
  exact ⟨post, ds, figs, e, hg, h2, h3⟩

/-- the first file of a sampled run -/
theorem posterior_kept {name : String} {compute : Dataset → Except PyErr ExampleCurves} {a : RunArgs} {save : Bool} {stored : Option Dataset}
    {draws : PyDict NdArr} (hd : SampledBy a draws) :
    ∃ post rest, (exampleMain name compute a save false stored draws).1 = (posteriorFile a, .posterior post) :: rest ∧
      ∀ k v, draws.get? k = some v → ∃ dims, post.vars.get? k = some (dims, v) := by
  obtain ⟨post, hp, hg⟩ := posterior_sampled (a := a) (stored := stored) hd.nodup hd.rows
  refine ⟨post, (Run.andThen ([], compute post) fun c => exampleTail name a save c).1, ?_, hg⟩
  unfold exampleMain
  rw [hp]
  rfl

/-- **C123**: whatever happens afterwards (a site without a draw, an exception while plotting, a refused dataset), the first file of a run that
samples is its posterior, with all the draws; with `--skip-inference` no posterior file is written, and nothing at all is if none was stored. -/
theorem C123_posterior_kept (a : RunArgs) (save : Bool) (stored : Option Dataset) (draws : PyDict NdArr) (hd : SampledBy a draws)
    (main : Bool → Option Dataset → Run Unit)
    (hm : (∃ zm, main = fun skip st => plpeakMain zm a save skip st draws) ∨
      ∃ zm m q na nt nz, main = fun skip st => bsplineMain zm m q na nt nz a save skip st draws) :
    (∃ post rest, (main false stored).1 = (posteriorFile a, .posterior post) :: rest ∧
      ∀ k v, draws.get? k = some v → ∃ dims, post.vars.get? k = some (dims, v)) ∧
    main true none = ([], .error .exception) := by
  rcases hm with ⟨zm, rfl⟩ | ⟨zm, m, q, na, nt, nz, rfl⟩
  · exact ⟨posterior_kept hd, rfl⟩
  · exact ⟨posterior_kept hd, rfl⟩

theorem pdfs_not_figure (a : RunArgs) : pdfsFile a ∉ figureFiles a := by
  intro h
  have e1 : (pdfsFile a).toList.reverse.head? = some '5' := by
    simp only [pdfsFile, String.toList_append, List.reverse_append]
    rfl
  have e2 : ∀ f ∈ figureFiles a, f.toList.reverse.head? = some 'g' := by
    intro f hf
    simp only [figureFiles, List.mem_cons, List.not_mem_nil, or_false] at hf
    rcases hf with rfl | rfl | rfl | rfl | rfl | rfl | rfl <;> simp only [String.toList_append, List.reverse_append] <;> rfl
  rw [e2 _ h] at e1
  exact absurd e1 (by decide)

/-- the curves are not among the files of a run that was refused -/
theorem not_saved (a : RunArgs) (post : Dataset) (save : Bool) (figs : List (List Drawn)) :
    pdfsFile a ∉ ((posteriorFile a, Out.posterior post) :: (if save then (figureFiles a).zip (figs.map Out.figure) else [])).map Prod.fst := by
  simp only [List.map_cons, List.mem_cons, not_or]
  refine ⟨(posterior_ne_pdfs a a).symm, fun h => ?_⟩
  split at h
  · obtain ⟨p, hp, e⟩ := List.mem_map.1 h
    exact pdfs_not_figure a (e ▸ (List.of_mem_zip hp).1)
  · simp at h

theorem chains_ne {a : RunArgs} (h2 : 2 ≤ a.chains) (hs : 0 < a.samples) : a.samples ≠ ((a.chains * a.samples).toNat : ℤ) := by
  have : 2 * a.samples ≤ a.chains * a.samples := by nlinarith
  omega

/-- **C123 is false** of every run with two or more chains: the sampler returns the draws of all chains but the curves are packed as
`--samples` draws.  The posterior and the figures are written, then the run ends with a `ValueError`; the curves are never saved.
Repeating it with `--skip-inference` on the stored posterior ends the same way. -/
theorem C123_plpeak_chains_fails (zm : ZModel) (a : RunArgs) (save : Bool) (stored : Option Dataset) (draws : PyDict NdArr)
    (x : String → ℕ → ℝ) (hd : SampledBy a draws) (h : ∀ k ∈ plpeakSites, DrawnScalar draws (a.chains * a.samples).toNat k (x k))
    (h2 : 2 ≤ a.chains) :
    ∃ post figs, plpeakMain zm a save false stored draws =
        ((posteriorFile a, .posterior post) :: (if save then (figureFiles a).zip (figs.map Out.figure) else []), .error .valueError) ∧
      (∀ k v, draws.get? k = some v → ∃ dims, post.vars.get? k = some (dims, v)) ∧
      (plpeakSet zm a.mmin a.mmax x).DrawnOn figs (a.chains * a.samples).toNat "PowerlawPeak" ∧
      pdfsFile a ∉ (plpeakMain zm a save false stored draws).1.map Prod.fst ∧
      (plpeakMain zm a save true (some post) draws).2 = .error .valueError := by
  obtain ⟨post, hp, hg⟩ := posterior_sampled (a := a) (stored := stored) hd.nodup hd.rows
  have hx : ∀ k ∈ plpeakSites, HasScalar post (a.chains * a.samples).toNat k (x k) := fun k hk => by
    obtain ⟨v, hv, h4, h5⟩ := h k hk
    obtain ⟨dims, h6⟩ := hg k v hv
    exact ⟨dims, v, h6, h4, h5⟩
  obtain ⟨figs, e, h3⟩ := main_refuses (name := "PowerlawPeak") (save := save) (compute := plpeakExampleCurves zm a.mmin a.mmax) _ hp
    (plpeak_curves hx) hd.pos (chains_ne h2 hd.samples)
  obtain ⟨_, e2, -⟩ := C123_plpeak_draw_count_fails zm a save post draws _ x hx hd.pos (chains_ne h2 hd.samples)
  refine ⟨post, figs, e, hg, h3, ?_, by rw [e2]⟩
  have e' : plpeakMain zm a save false stored draws = _ := e
  rw [e']
  exact not_saved a post save figs

/-- the coefficient sites of the spline example with their sizes -/
def bsplineSites (m q na nt nz : ℕ) : List (String × ℕ) :=
  [("mass_cs", m), ("q_cs", q), ("a1_cs", na), ("tilt1_cs", nt), ("a2_cs", na), ("tilt2_cs", nt), ("z_cs", nz - 1)]

/-- the curves of the spline example, for coefficients `c` and scalar draws `x`; `mass` and `spins` are the calculators' rows -/
def bsplineSet (zm : PLSpline) (mmin mmax : ℝ) (c : String → ℕ → ℕ → ℝ) (x : String → ℕ → ℝ) (mass : ℕ → (ℕ → F) × (ℕ → F))
    (spins : ℕ → ((ℕ → F) × (ℕ → F)) × ((ℕ → F) × (ℕ → F))) : CurveSet where
  m1s := (linspace mmin mmax 800).get
  qs := (linspace (mmin / mmax) 1 800).get
  zs := zm.parent.zs.get
  mass := fun d => (mass d).1
  ratio := fun d => (mass d).2
  mag1 := fun d => (spins d).1.1
  mag2 := fun d => (spins d).1.2
  tilt1 := fun d => (spins d).2.1
  tilt2 := fun d => (spins d).2.2
  rate := powerlawSplineRate zm (x "lamb") (c "z_cs") (x "rate") none

/-- the calculators accept the sizes and limits, and `mass` and `spins` are their rows for the coefficients `c` -/
structure BsplineRows (a : RunArgs) (m q na nt : ℕ) (c : String → ℕ → ℕ → ℝ) (mass : ℕ → (ℕ → F) × (ℕ → F))
    (spins : ℕ → ((ℕ → F) × (ℕ → F)) × ((ℕ → F) × (ℕ → F))) : Prop where
  mass : bsplineMassPPDs m q a.mmin a.mmax (c "mass_cs") (c "q_cs") none none = .ok mass
  spins : bsplineSpinPPDs2 na na nt nt (c "a1_cs") (c "tilt1_cs") (c "a2_cs") (c "tilt2_cs") none none = .ok spins

theorem bspline_curves {zm : PLSpline} {a : RunArgs} {m q na nt nz : ℕ} {post : Dataset} {n : ℕ}
    {c : String → ℕ → ℕ → ℝ} {x : String → ℕ → ℝ} {mass : ℕ → (ℕ → F) × (ℕ → F)} {spins : ℕ → ((ℕ → F) × (ℕ → F)) × ((ℕ → F) × (ℕ → F))}
    (hc : ∀ p ∈ bsplineSites m q na nt nz, HasCoefs post n p.2 p.1 (c p.1)) (hx : ∀ k ∈ ["lamb", "rate"], HasScalar post n k (x k))
    (hr : BsplineRows a m q na nt c mass spins) :
    bsplineExampleCurves zm m q na nt nz a.mmin a.mmax post = .ok ((bsplineSet zm a.mmin a.mmax c x mass spins).locals n) := by
  have hs : ∀ p ∈ bsplineSites m q na nt nz, coefSite post n p.2 p.1 = .ok (c p.1) := fun p hp => coefSite_ok (hc p hp)
  simp only [bsplineSites, List.mem_cons, List.not_mem_nil, or_false, forall_eq_or_imp, forall_eq] at hs
  obtain ⟨h1, h2, h3, h4, h5, h6, h7⟩ := hs
  have h8 := scalarSite_ok (hx "lamb" (by simp))
  have h9 := scalarSite_ok (hx "rate" (by simp))
  unfold bsplineExampleCurves
  rw [drawsIn_coefs (hc ("mass_cs", m) (by simp [bsplineSites]))]
  simp only [bind, Except.bind, h1, h2, h3, h4, h5, h6, h7, h8, h9, hr.mass, hr.spins, initErr]
  rfl

/-- **C123, partial:** the spline example, stored posterior. -/
theorem C123_bspline_partial (zm : PLSpline) (a : RunArgs) (m q na nt nz : ℕ) (save : Bool) (post : Dataset) (draws : PyDict NdArr) (n : ℕ)
    (c : String → ℕ → ℕ → ℝ) (x : String → ℕ → ℝ) (mass : ℕ → (ℕ → F) × (ℕ → F)) (spins : ℕ → ((ℕ → F) × (ℕ → F)) × ((ℕ → F) × (ℕ → F)))
    (hr : BsplineRows a m q na nt c mass spins) (hc : ∀ p ∈ bsplineSites m q na nt nz, HasCoefs post n p.2 p.1 (c p.1))
    (hx : ∀ k ∈ ["lamb", "rate"], HasScalar post n k (x k)) (hn : 0 < n) (hs : a.samples = n) :
    ∃ ds figs, bsplineMain zm m q na nt nz a save true (some post) draws =
        ((if save then (figureFiles a).zip (figs.map Out.figure) else []) ++ [(pdfsFile a, .curves ds)], .ok ()) ∧
      (bsplineSet zm a.mmin a.mmax c x mass spins).StoredIn ds n ∧ (bsplineSet zm a.mmin a.mmax c x mass spins).DrawnOn figs n "B-Spline" :=
  main_saves (first := []) _ rfl (bspline_curves hc hx hr) hn hs

/-- **C123 is false** of the spline example too when the posterior has another number of draws than `--samples`. -/
theorem C123_bspline_draw_count_fails (zm : PLSpline) (a : RunArgs) (m q na nt nz : ℕ) (save : Bool) (post : Dataset) (draws : PyDict NdArr)
    (n : ℕ) (c : String → ℕ → ℕ → ℝ) (x : String → ℕ → ℝ) (mass : ℕ → (ℕ → F) × (ℕ → F))
    (spins : ℕ → ((ℕ → F) × (ℕ → F)) × ((ℕ → F) × (ℕ → F))) (hr : BsplineRows a m q na nt c mass spins)
    (hc : ∀ p ∈ bsplineSites m q na nt nz, HasCoefs post n p.2 p.1 (c p.1)) (hx : ∀ k ∈ ["lamb", "rate"], HasScalar post n k (x k))
    (hn : 0 < n) (hs : a.samples ≠ n) :
    ∃ figs, bsplineMain zm m q na nt nz a save true (some post) draws =
        (if save then (figureFiles a).zip (figs.map Out.figure) else [], .error .valueError) ∧
      (bsplineSet zm a.mmin a.mmax c x mass spins).DrawnOn figs n "B-Spline" :=
  main_refuses (first := []) _ rfl (bspline_curves hc hx hr) hn hs

/-- **C123 is false** of every spline run with two or more chains. -/
theorem C123_bspline_chains_fails (zm : PLSpline) (a : RunArgs) (m q na nt nz : ℕ) (save : Bool) (stored : Option Dataset)
    (draws : PyDict NdArr) (c : String → ℕ → ℕ → ℝ) (x : String → ℕ → ℝ) (mass : ℕ → (ℕ → F) × (ℕ → F))
    (spins : ℕ → ((ℕ → F) × (ℕ → F)) × ((ℕ → F) × (ℕ → F))) (hr : BsplineRows a m q na nt c mass spins) (hd : SampledBy a draws)
    (hc : ∀ p ∈ bsplineSites m q na nt nz, DrawnCoefs draws (a.chains * a.samples).toNat p.2 p.1 (c p.1))
    (hx : ∀ k ∈ ["lamb", "rate"], DrawnScalar draws (a.chains * a.samples).toNat k (x k)) (h2 : 2 ≤ a.chains) :
    ∃ post figs, bsplineMain zm m q na nt nz a save false stored draws =
        ((posteriorFile a, .posterior post) :: (if save then (figureFiles a).zip (figs.map Out.figure) else []), .error .valueError) ∧
      (∀ k v, draws.get? k = some v → ∃ dims, post.vars.get? k = some (dims, v)) ∧
      (bsplineSet zm a.mmin a.mmax c x mass spins).DrawnOn figs (a.chains * a.samples).toNat "B-Spline" ∧
      pdfsFile a ∉ (bsplineMain zm m q na nt nz a save false stored draws).1.map Prod.fst ∧
      (bsplineMain zm m q na nt nz a save true (some post) draws).2 = .error .valueError := by
  obtain ⟨post, hp, hg⟩ := posterior_sampled (a := a) (stored := stored) hd.nodup hd.rows
  have hc' : ∀ p ∈ bsplineSites m q na nt nz, HasCoefs post (a.chains * a.samples).toNat p.2 p.1 (c p.1) := fun p hp => by
    obtain ⟨v, hv, h4, h5⟩ := hc p hp
    obtain ⟨dims, h6⟩ := hg p.1 v hv
    exact ⟨dims, v, h6, h4, h5⟩
  have hx' : ∀ k ∈ ["lamb", "rate"], HasScalar post (a.chains * a.samples).toNat k (x k) := fun k hk => by
    obtain ⟨v, hv, h4, h5⟩ := hx k hk
    obtain ⟨dims, h6⟩ := hg k v hv
    exact ⟨dims, v, h6, h4, h5⟩
  obtain ⟨figs, e, h3⟩ := main_refuses (name := "B-Spline") (save := save) (compute := bsplineExampleCurves zm m q na nt nz a.mmin a.mmax) _ hp
    (bspline_curves hc' hx' hr) hd.pos (chains_ne h2 hd.samples)
  obtain ⟨_, e2, -⟩ := C123_bspline_draw_count_fails zm a m q na nt nz save post draws _ c x mass spins hr hc' hx' hd.pos
    (chains_ne h2 hd.samples)
  refine ⟨post, figs, e, hg, h3, ?_, by rw [e2]⟩
  have e' : bsplineMain zm m q na nt nz a save false stored draws = _ := e
  rw [e']
  exact not_saved a post save figs

/-! ## C124: which of the saved curves are densities -/

theorem sum_some_pinf {s : Finset ℕ} {f : ℕ → F} (h : ∀ i ∈ s, f i = F.pinf ∨ ∃ r, f i = fin r) (hp : ∃ i ∈ s, f i = F.pinf) :
    ∑ i ∈ s, f i = F.pinf := by
  have key : ∀ t : Finset ℕ, (∀ i ∈ t, f i = F.pinf ∨ ∃ r, f i = fin r) →
      ((∃ i ∈ t, f i = F.pinf) → ∑ i ∈ t, f i = F.pinf) ∧ ((¬ ∃ i ∈ t, f i = F.pinf) → ∃ r, ∑ i ∈ t, f i = fin r) := by
    intro t
    induction t using Finset.induction_on with
    | empty => exact fun _ => ⟨by simp, fun _ => ⟨0, rfl⟩⟩
    | insert a t ha ih =>
      intro ht
      have ih := ih fun i hi => ht i (Finset.mem_insert_of_mem hi)
      rw [Finset.sum_insert ha]
      by_cases hq : ∃ i ∈ t, f i = F.pinf
      · refine ⟨fun _ => ?_, fun hn => absurd ?_ hn⟩
        · rw [ih.1 hq]
          rcases ht a (Finset.mem_insert_self _ _) with h | ⟨r, h⟩ <;> rw [h] <;> rfl
        · obtain ⟨i, hi, e⟩ := hq
          exact ⟨i, Finset.mem_insert_of_mem hi, e⟩
      · obtain ⟨r, hr⟩ := ih.2 hq
        rw [hr]
        rcases ht a (Finset.mem_insert_self _ _) with h | ⟨r', h⟩
        · exact ⟨fun _ => by rw [h]; rfl, fun hn => absurd ⟨a, Finset.mem_insert_self _ _, h⟩ hn⟩
        · refine ⟨fun ⟨i, hi, e⟩ => ?_, fun _ => ⟨r' + r, by rw [h]; rfl⟩⟩
          rcases Finset.mem_insert.1 hi with rfl | hi
          · rw [h] at e; cases e
          · exact absurd ⟨i, hi, e⟩ hq
  exact (key s h).1 hp

/-- with both shapes below 1 the curve of a draw is NaN at both ends of the grid and exactly zero everywhere else -/
theorem beta_flat {alpha beta : ℕ → ℝ} {d : ℕ} (h1 : 0 < alpha d) (h2 : alpha d < 1) (h3 : 0 < beta d) (h4 : beta d < 1) :
    betaSpinPPD alpha beta 1 none none d 0 = F.nan ∧ betaSpinPPD alpha beta 1 none none d 799 = F.nan ∧
    ∀ i, 0 < i → i < 799 → betaSpinPPD alpha beta 1 none none d i = fin 0 := by
  set x := (linspace 0 1 ppdN).get with hx
  set p : ℕ → F := fun i => betadist (fin (x i)) (fin (alpha d)) (fin (beta d)) (fin 1) with hp
  have mono : StrictMono x := linspace_strictMono one_pos two_le_ppdN
  have x0 : x 0 = 0 := linspace_zero _ _ _
  have x1 : x 799 = 1 := linspace_last 0 1 two_le_ppdN
  have p0 : p 0 = F.pinf := by rw [hp]; simp only [x0]; exact (C23_endpoint_values _ _ _ 0 h1 h3 one_pos).2 h2
  have p1 : p 799 = F.pinf := by rw [hp]; simp only [x1]; exact (betadist_top h1 h3 one_pos).2 h4
  have pin : ∀ i, 0 < i → i < 799 → ∃ r, p i = fin r := fun i hi hi' =>
    ⟨_, betadist_in (fl := 0) h1 h3 (x0 ▸ mono hi) (x1 ▸ mono hi')⟩
  have pall : ∀ i < 800, p i = F.pinf ∨ ∃ r, p i = fin r := by
    intro i hi
    rcases Nat.eq_zero_or_pos i with rfl | h
    · exact Or.inl p0
    · rcases eq_or_ne i 799 with rfl | h'
      · exact Or.inl p1
      · exact Or.inr (pin i h (by omega))
  have hT : trapzF ppdN p (fun j => fin (x j)) = F.pinf := by
    unfold trapzF
    have hs : ∑ i ∈ range (ppdN - 1), (fin (x (i + 1)) - fin (x i)) * (p (i + 1) + p i) = F.pinf := by
      have step : ∀ i, fin (x (i + 1)) - fin (x i) = fin (x (i + 1) - x i) := fun i => sub_fin _ _
      have pos : ∀ i, 0 < x (i + 1) - x i := fun i => sub_pos.2 (mono (Nat.lt_succ_self i))
      have mp : ∀ i, fin (x (i + 1) - x i) * F.pinf = F.pinf := fun i => by
        rw [fin_mul_pinf, infOfSign_pos (pos i)]
      refine sum_some_pinf (fun i hi => ?_) ⟨0, by simp [ppdN], ?_⟩
      · have hi : i < 799 := by simpa [ppdN] using hi
        rw [step]
        rcases pall i (by omega) with h | ⟨r, h⟩ <;> rcases pall (i + 1) (by omega) with h' | ⟨r', h'⟩ <;> rw [h, h']
        · exact Or.inl (mp i)
        · exact Or.inl (mp i)
        · exact Or.inl (mp i)
        · exact Or.inr ⟨_, rfl⟩
      · obtain ⟨r, h⟩ := pin 1 one_pos (by norm_num)
        rw [step, p0, h]
        exact mp 0
    rw [hs, fin_mul_pinf, infOfSign_pos (by norm_num)]
  have hrow : ∀ i, betaSpinPPD alpha beta 1 none none d i = fin 1 * fin 1 * p i / F.pinf := by
    intro i
    unfold betaSpinPPD ppdRow
    simp only [← hx]
    rw [← hp, hT]
    rfl
  have hinf : fin 1 * fin 1 * F.pinf / F.pinf = F.nan := by
    rw [show fin 1 * fin 1 = fin (1 * 1) from rfl, fin_mul_pinf, infOfSign_pos (by norm_num)]; rfl
  refine ⟨by rw [hrow, p0, hinf], by rw [hrow, p1, hinf], fun i hi hi' => ?_⟩
  obtain ⟨r, h⟩ := pin i hi hi'
  rw [hrow, h]
  rfl

/-- the curve stored under `<key>_pdfs` for draw `d` -/
def StoredRow (ds : Dataset) (key : String) (d : ℕ) (row : ℕ → F) : Prop :=
  ∃ v, ds.vars.get? (key ++ "_pdfs") = some (["draw", key], v) ∧ ∀ j < 800, v.get [d, j] = row j

theorem StoresCurve.row {ds : Dataset} {key : String} {n : ℕ} {f : ℕ → ℕ → F} (h : StoresCurve ds key n 800 f) {d : ℕ} (hd : d < n) :
    StoredRow ds key d (f d) := by
  obtain ⟨v, h1, -, h3⟩ := h
  exact ⟨v, h1, fun j hj => h3 d hd j hj⟩

/-- **C124, partial** (missing: the spin magnitudes, see `C124_magnitudes_fails`).  Whatever the posterior, as long as its draws lie where
the priors put them: the mass, mass-ratio and tilt curves that the run saves for a draw are densities on their grids, the masses are the
two marginals of one joint density, and the rate curve is the draw's merger-rate evolution. -/
theorem C124_plpeak_partial (zm : ZModel) (mmin mmax : ℝ) (x : String → ℕ → ℝ) (ds : Dataset) (n d : ℕ) (hd : d < n)
    (hds : (plpeakSet zm mmin mmax x).StoredIn ds n) (h0 : 0 < mmin) (h : mmin < mmax) (hsig : 0 < x "sig_peak" d)
    (hlam : 0 ≤ x "lambda_m" d ∧ x "lambda_m" d ≤ 1) (hs1 : 0.1 ≤ x "sig_ct1" d) (hs2 : 0.1 ≤ x "sig_ct2" d)
    (hl1 : 0 ≤ x "lambda_ct1" d ∧ x "lambda_ct1" d ≤ 1) (hl2 : 0 ≤ x "lambda_ct2" d ∧ x "lambda_ct2" d ≤ 1)
    (hz : 0 < zm.zmin) (hzz : zm.zmin < zm.zmax) (hdV : ∀ z, zm.zmin ≤ z → z ≤ zm.zmax → 0 < zm.dV z) :
    (∃ rows : (ℕ → F) × (ℕ → F), StoredRow ds "mass_1" d rows.1 ∧ StoredRow ds "mass_ratio" d rows.2 ∧ MassCurves mmin mmax rows 1) ∧
    (∃ row, StoredRow ds "cos_tilt1" d row ∧ IntegratesTo (linspace (-1) 1 800).get row 1) ∧
    (∃ row, StoredRow ds "cos_tilt2" d row ∧ IntegratesTo (linspace (-1) 1 800).get row 1) ∧
    ∃ v, ds.vars.get? "redshift_pdfs" = some (["draw", "redshift"], v) ∧
      ∀ j < 1000, v.get [d, j] = fin (x "rate" d * (1 + (linspace zm.zmin zm.zmax 1000).get j) ^ x "lamb" d) := by
  obtain ⟨⟨m, -⟩, ⟨q, -⟩, -, -, ⟨t1, -⟩, ⟨t2, -⟩, ⟨r, -⟩⟩ := hds
  refine ⟨⟨_, m.row hd, q.row hd, ?_⟩, ⟨_, t1.row hd, ?_⟩, ⟨_, t2.row hd, ?_⟩, ?_⟩
  · simpa [valueAt] using C72_plpeak_masses h0 h (x "alpha") (x "beta") (x "mu_peak") (x "sig_peak") (x "lambda_m") d hsig hlam.1 hlam.2 none none
  · simpa [valueAt, plpeakSet] using C72_mixture_tilts (x "sig_ct1") (x "lambda_ct1") d (by norm_num at hs1; linarith) hl1.1 hl1.2 none none
  · simpa [valueAt, plpeakSet] using C72_mixture_tilts (x "sig_ct2") (x "lambda_ct2") d (by norm_num at hs2; linarith) hl2.1 hl2.2 none none
  · obtain ⟨v, h1, -, h3⟩ := r
    obtain ⟨ρ, -, h4, -⟩ := C90_powerlaw_rate zm hz hzz hdV (x "lamb") (x "rate") none d
    refine ⟨v, h1, fun j hj => ?_⟩
    rw [h3 d hd j hj]
    simpa [valueAt, plpeakSet] using h4 j hj

/-- **C124** for the spline example: with at least four splines per parameter, sensible limits and coefficients above `-BIG` (the
value `nan_to_num` substitutes for `-inf`), all curves that the run saves for a draw are densities on their grids. -/
theorem C124_bspline (zm : PLSpline) (a : RunArgs) (m q na nt : ℕ) (c : String → ℕ → ℕ → ℝ) (x : String → ℕ → ℝ) (mass : ℕ → (ℕ → F) × (ℕ → F))
    (spins : ℕ → ((ℕ → F) × (ℕ → F)) × ((ℕ → F) × (ℕ → F))) (hr : BsplineRows a m q na nt c mass spins) (ds : Dataset) (n d : ℕ) (hd : d < n)
    (hds : (bsplineSet zm a.mmin a.mmax c x mass spins).StoredIn ds n) (h0 : 0 < a.mmin) (h : a.mmin < a.mmax) (hm : 4 ≤ m) (hq : 4 ≤ q)
    (ha : 4 ≤ na ∧ na ≤ 1000003) (ht : 4 ≤ nt ∧ nt ≤ 1000003)
    (gm : 1 / 1000000 ≤ (Real.log a.mmax - Real.log a.mmin) / ((m : ℝ) - 3)) (gq : 1 / 1000000 ≤ (1 - a.mmin / a.mmax) / ((q : ℝ) - 3))
    (hc : ∀ k d i, -F.BIG < c k d i) :
    (∃ rows : (ℕ → F) × (ℕ → F), StoredRow ds "mass_1" d rows.1 ∧ StoredRow ds "mass_ratio" d rows.2 ∧ MassCurves a.mmin a.mmax rows 1) ∧
    (∃ row, StoredRow ds "a1" d row ∧ IntegratesTo (linspace 0 1 800).get row 1) ∧
    (∃ row, StoredRow ds "a2" d row ∧ IntegratesTo (linspace 0 1 800).get row 1) ∧
    (∃ row, StoredRow ds "cos_tilt1" d row ∧ IntegratesTo (linspace (-1) 1 800).get row 1) ∧
    (∃ row, StoredRow ds "cos_tilt2" d row ∧ IntegratesTo (linspace (-1) 1 800).get row 1) := by
  obtain ⟨⟨sm, -⟩, ⟨sq, -⟩, ⟨s1, -⟩, ⟨s2, -⟩, ⟨t1, -⟩, ⟨t2, -⟩, -⟩ := hds
  obtain ⟨M, e1, hM⟩ := C72_bspline_masses h0 h hm hq gm gq (c "mass_cs") (c "q_cs") (fun _ _ _ => hc _ _ _) (fun _ _ _ => hc _ _ _) none none
  obtain ⟨Sp, e2, hS⟩ := C72_bspline_independent_spins (na1 := na) (na2 := na) (nt1 := nt) (nt2 := nt) (by simp [ha, ht]) (c "a1_cs") (c "tilt1_cs") (c "a2_cs")
    (c "tilt2_cs") (fun _ _ _ => hc _ _ _) (fun _ _ _ => hc _ _ _) (fun _ _ _ => hc _ _ _) (fun _ _ _ => hc _ _ _) none none
  rw [hr.mass] at e1
  rw [hr.spins] at e2
  cases e1
  cases e2
  simp only [valueAt, Option.map_none, Option.getD_none, mul_one] at hM hS
  exact ⟨⟨_, sm.row hd, sq.row hd, hM d⟩, ⟨_, s1.row hd, (hS d).1⟩, ⟨_, s2.row hd, (hS d).2.1⟩, ⟨_, t1.row hd, (hS d).2.2.1⟩,
    ⟨_, t2.row hd, (hS d).2.2.2⟩⟩

/-- the curve of a draw carries nothing: NaN at the two ends of the grid, zero at the 798 points in between -/
def Empty (row : ℕ → F) : Prop := row 0 = F.nan ∧ row 799 = F.nan ∧ ∀ j, 0 < j → j < 799 → row j = fin 0

/-- **C124 is false of the spin magnitudes**, for every draw inside the priors of the example: it passes `mu * var` and
`(1 - mu) * var` as the shapes of the Beta density, both are below 1, the density diverges at both ends of the grid, and the curve divided
by its infinite trapezoid integral is NaN at the ends and zero everywhere else. -/
theorem C124_magnitudes_fails (zm : ZModel) (mmin mmax : ℝ) (x : String → ℕ → ℝ) (ds : Dataset) (n d : ℕ) (hd : d < n)
    (hds : (plpeakSet zm mmin mmax x).StoredIn ds n) (mu1 var1 mu2 var2 : ℝ)
    (h1 : (x "alpha_a1" d, x "beta_a1" d) = plpeakShapes mu1 var1) (h2 : (x "alpha_a2" d, x "beta_a2" d) = plpeakShapes mu2 var2)
    (hm1 : 0 < mu1 ∧ mu1 < 1) (hm2 : 0 < mu2 ∧ mu2 < 1) (hv1 : 0.005 ≤ var1 ∧ var1 ≤ 0.25) (hv2 : 0.005 ≤ var2 ∧ var2 ≤ 0.25) :
    (∃ row, StoredRow ds "a1" d row ∧ Empty row ∧ ∀ c, ¬ IntegratesTo (linspace 0 1 800).get row c) ∧
    (∃ row, StoredRow ds "a2" d row ∧ Empty row ∧ ∀ c, ¬ IntegratesTo (linspace 0 1 800).get row c) := by
  obtain ⟨-, -, ⟨a1, -⟩, ⟨a2, -⟩, -⟩ := hds
  have key : ∀ {alpha beta : ℕ → ℝ} {mu var : ℝ}, (alpha d, beta d) = plpeakShapes mu var → 0 < mu ∧ mu < 1 → 0.005 ≤ var ∧ var ≤ 0.25 →
      Empty (betaSpinPPD alpha beta 1 none none d) := by
    intro alpha beta mu var e hm hv
    simp only [plpeakShapes, Prod.mk.injEq] at e
    norm_num at hv
    exact beta_flat (by rw [e.1]; nlinarith [hm.1]) (by rw [e.1]; nlinarith [hm.1, hm.2]) (by rw [e.2]; nlinarith [hm.2])
      (by rw [e.2]; nlinarith [hm.1, hm.2])
  have no : ∀ {row : ℕ → F}, Empty row → ∀ c, ¬ IntegratesTo (linspace 0 1 800).get row c := by
    rintro row ⟨h, -⟩ c ⟨g, hg, -⟩
    have := hg 0 (by norm_num)
    rw [h] at this
    cases this
  have e1 := key h1 hm1 hv1
  have e2 := key h2 hm2 hv2
  exact ⟨⟨_, a1.row hd, e1, no e1⟩, ⟨_, a2.row hd, e2, no e2⟩⟩

/-! ### non-vacuity -/

/-- a posterior of the power-law-plus-peak example: `n` equal draws -/
def demoPost (n : ℕ) : Dataset where
  vars := plpeakSites.map fun k => (k, (["draw"], ⟨[n], fun _ => fin (1 / 2)⟩))
  coords := []
/-- the same as the sampler delivers it -/
def demoDraws (n : ℕ) : PyDict NdArr := plpeakSites.map fun k => (k, ⟨[n], fun _ => fin (1 / 2)⟩)
/-- 4 chains of 1500 draws, the other options at their defaults -/
def demoArgs (chains : ℤ) : RunArgs := ⟨"data.h5", "run", "out", 3, 100, chains, 1500, 1, 1000, 1, []⟩

theorem demoPost_has (n : ℕ) : ∀ k ∈ plpeakSites, HasScalar (demoPost n) n k fun _ => 1 / 2 := by
  intro k hk
  refine ⟨["draw"], ⟨[n], fun _ => fin (1 / 2)⟩, ?_, rfl, fun _ => rfl⟩
  simp only [plpeakSites, List.mem_cons, List.not_mem_nil, or_false] at hk
  rcases hk with rfl | rfl | rfl | rfl | rfl | rfl | rfl | rfl | rfl | rfl | rfl | rfl | rfl | rfl | rfl <;>
    simp [demoPost, plpeakSites, PyDict.get?]

theorem demoDraws_has (n : ℕ) : ∀ k ∈ plpeakSites, DrawnScalar (demoDraws n) n k fun _ => 1 / 2 := by
  intro k hk
  refine ⟨⟨[n], fun _ => fin (1 / 2)⟩, ?_, rfl, fun _ => rfl⟩
  simp only [plpeakSites, List.mem_cons, List.not_mem_nil, or_false] at hk
  rcases hk with rfl | rfl | rfl | rfl | rfl | rfl | rfl | rfl | rfl | rfl | rfl | rfl | rfl | rfl | rfl <;>
    simp [demoDraws, plpeakSites, PyDict.get?]

theorem demo_sampled {chains : ℤ} (h : 0 < chains) : SampledBy (demoArgs chains) (demoDraws (chains * 1500).toNat) where
  chains := h
  samples := by simp [demoArgs]
  nodup := by simp [demoDraws, plpeakSites, PyDict.keys]
  rows := by
    intro p hp
    obtain ⟨k, -, rfl⟩ := List.mem_map.1 hp
    exact ⟨[], rfl⟩

-- a stored posterior of 1500 draws, one of 6000, and a run of four chains
example (zm : ZModel) : (plpeakMain zm (demoArgs 1) true true (some (demoPost 1500)) []).2 = .ok () := by
  obtain ⟨_, _, e, -⟩ := C123_plpeak_partial zm (demoArgs 1) true (demoPost 1500) [] 1500 (fun _ _ => 1 / 2) (demoPost_has 1500) (by norm_num) rfl
  rw [e]
example (zm : ZModel) : (plpeakMain zm (demoArgs 4) true true (some (demoPost 6000)) []).2 = .error .valueError := by
  obtain ⟨_, e, -⟩ := C123_plpeak_draw_count_fails zm (demoArgs 4) true (demoPost 6000) [] 6000 (fun _ _ => 1 / 2) (demoPost_has 6000) (by norm_num)
    (by simp [demoArgs])
  rw [e]
example (zm : ZModel) : (plpeakMain zm (demoArgs 4) true false none (demoDraws 6000)).2 = .error .valueError := by
  obtain ⟨_, _, e, -⟩ := C123_plpeak_chains_fails zm (demoArgs 4) true none (demoDraws 6000) (fun _ _ => 1 / 2) (demo_sampled (by norm_num))
    (demoDraws_has 6000) (by simp [demoArgs])
  rw [e]
example (zm : ZModel) : (plpeakMain zm (demoArgs 1) true false none (demoDraws 1500)).2 = .ok () := by
  obtain ⟨_, _, _, e, -⟩ := C123_plpeak_sampled_partial zm (demoArgs 1) true none (demoDraws 1500) (fun _ _ => 1 / 2) (demo_sampled (by norm_num))
    (demoDraws_has 1500) rfl
  rw [e]

/-- the spline calculators accept the default sizes and limits -/
theorem demo_rows : ∃ mass spins, BsplineRows (demoArgs 1) 50 30 16 16 (fun _ _ _ => 0) mass spins := by
  have hb : -F.BIG < (0 : ℝ) := by norm_num [F.BIG]
  obtain ⟨M, e1, -⟩ := C72_bspline_masses (nm := 50) (nq := 30) (mmin := 3) (mmax := 100) (by norm_num) (by norm_num) (by norm_num) (by norm_num)
    (by
      rw [← Real.log_div (by norm_num) (by norm_num)]
      have h1 : (1 : ℝ) ≤ Real.log (100 / 3) := by
        rw [Real.le_log_iff_exp_le (by norm_num)]
        have := Real.exp_one_lt_d9
        linarith
      rw [le_div_iff₀ (by norm_num)]; norm_num at h1 ⊢; linarith)
    (by norm_num) (fun _ _ => 0) (fun _ _ => 0) (fun _ _ _ => hb) (fun _ _ _ => hb) none none
  obtain ⟨Sp, e2, -⟩ := C72_bspline_independent_spins (na1 := 16) (na2 := 16) (nt1 := 16) (nt2 := 16) (by norm_num) (fun _ _ => 0) (fun _ _ => 0)
    (fun _ _ => 0) (fun _ _ => 0) (fun _ _ _ => hb) (fun _ _ _ => hb) (fun _ _ _ => hb) (fun _ _ _ => hb) none none
  exact ⟨M, Sp, e1, e2⟩

-- a spline posterior of 1500 draws with the default sizes is saved
example (zm : PLSpline) : ∃ post, (bsplineMain zm 50 30 16 16 20 (demoArgs 1) false true (some post) []).2 = .ok () := by
  obtain ⟨M, Sp, hr⟩ := demo_rows
  refine ⟨⟨[("mass_cs", ([], ⟨[1500, 50], fun _ => fin 0⟩)), ("q_cs", ([], ⟨[1500, 30], fun _ => fin 0⟩)), ("a1_cs", ([], ⟨[1500, 16], fun _ => fin 0⟩)),
    ("tilt1_cs", ([], ⟨[1500, 16], fun _ => fin 0⟩)), ("a2_cs", ([], ⟨[1500, 16], fun _ => fin 0⟩)), ("tilt2_cs", ([], ⟨[1500, 16], fun _ => fin 0⟩)),
    ("z_cs", ([], ⟨[1500, 19], fun _ => fin 0⟩)), ("lamb", ([], ⟨[1500], fun _ => fin 0⟩)), ("rate", ([], ⟨[1500], fun _ => fin 0⟩))], []⟩, ?_⟩
  obtain ⟨_, _, e, -⟩ := C123_bspline_partial zm (demoArgs 1) 50 30 16 16 20 false ⟨[("mass_cs", ([], ⟨[1500, 50], fun _ => fin 0⟩)),
    ("q_cs", ([], ⟨[1500, 30], fun _ => fin 0⟩)), ("a1_cs", ([], ⟨[1500, 16], fun _ => fin 0⟩)),
    ("tilt1_cs", ([], ⟨[1500, 16], fun _ => fin 0⟩)), ("a2_cs", ([], ⟨[1500, 16], fun _ => fin 0⟩)), ("tilt2_cs", ([], ⟨[1500, 16], fun _ => fin 0⟩)),
    ("z_cs", ([], ⟨[1500, 19], fun _ => fin 0⟩)), ("lamb", ([], ⟨[1500], fun _ => fin 0⟩)), ("rate", ([], ⟨[1500], fun _ => fin 0⟩))], []⟩ [] 1500
    (fun _ _ _ => 0) (fun _ _ => 0) M Sp hr
    (by simp [bsplineSites, HasCoefs, PyDict.get?]) (by simp [HasScalar, PyDict.get?]) (by norm_num) rfl
  rw [e]

-- what C124 says of a draw in the middle of the priors, for the dataset such a run saves
example (zm : ZModel) : ∃ ds, (plpeakSet zm 3 100 fun k _ => if k = "alpha_a1" ∨ k = "alpha_a2" ∨ k = "beta_a1" ∨ k = "beta_a2" then 1 / 16 else 1 / 2).StoredIn ds 5 ∧
    (∃ row, StoredRow ds "a1" 2 row ∧ Empty row) := by
  set x : String → ℕ → ℝ := fun k _ => if k = "alpha_a1" ∨ k = "alpha_a2" ∨ k = "beta_a1" ∨ k = "beta_a2" then 1 / 16 else 1 / 2 with hx
  obtain ⟨ds, -, h2, h3⟩ := Fits.packs ((plpeakSet zm 3 100 x).fits (n := 5) (by norm_num))
  have hds := CurveSet.storedIn_of h2 h3
  refine ⟨ds, hds, ?_⟩
  obtain ⟨⟨row, h1, h2, -⟩, -⟩ := C124_magnitudes_fails zm 3 100 x ds 5 2 (by norm_num) hds (1 / 2) (1 / 8) (1 / 2) (1 / 8)
    (by simp [hx, plpeakShapes]; norm_num) (by simp [hx, plpeakShapes]; norm_num) (by norm_num) (by norm_num) (by norm_num) (by norm_num)
  exact ⟨row, h1, h2⟩

end GW
end
