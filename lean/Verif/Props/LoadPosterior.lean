import Verif.Props.LoadData

/-!
# C104: the posterior data set, and the file that carries both data sets to the inference stage
-/

noncomputable section
open Classical
namespace GW
open _root_.F
open Cosmo

variable {iso : ℝ → ℝ → Except PyErr F} {joint : ℝ → ℝ → ℝ → Except PyErr F}

/-- the value of parameter `name` for raw sample `i` of an event -/
def rawValue (cosmo : Obj) (e : PEEvent) (name : String) (i : ℕ) : ℝ := sampleValue cosmo e name (e.row i)

theorem range_getD_map (K : List ℕ) (f : ℕ → ℝ) : (List.range K.length).map (fun j => (K.map f).getD j 0) = K.map f := by
  refine range_getD K f _ fun j hj => ?_
  simp [List.getD_eq_getElem?_getD, List.getElem?_eq_getElem hj]

/-- the catalogue with its prior row, before the selection of the requested rows -/
theorem appended_spec {p : Par} (hf : Flat p) {max_z dz0 : ℝ} (hm : 0 < max_z) (hd0 : 0 < dz0) {s0 : Obj}
    (hs : init p max_z dz0 = .ok s0) (hist : List Op) (hh : ∀ op ∈ hist, op.Ok) (ps : List String)
    {cosmo : Obj} {cat : List (String × PEEvent)} {mmax : ℝ} {choice : String → ℕ → ℕ → List ℕ} (hch : ValidChoice choice)
    {d : List (String × EvData)} (hd : processed cosmo cat mmax choice = .ok d) (hne : cat ≠ [])
    (hp : ∀ e ∈ cat, e.2.zprior = "euclidean" ∨ e.2.zprior = "comoving") :
    ∃ k ≤ 10000, (k = 10000 ∨ ∃ e ∈ cat, k = (survivors e.2 mmax).length) ∧ ∃ (zmax : ℝ) (pe pc : ℕ → ℝ) (full : List (String × EvData)), 1.9 ≤ zmax ∧
      ("redshift" ∈ ps → ZDensities p (s0.run hist) zmax pe pc) ∧ appendPrior (s0.run hist) d ps = .ok full ∧
      List.Forall₂ (fun e o => o.1 = e.1 ∧ ∃ K : List ℕ, K.length = k ∧ o.2.n = k ∧ K.Nodup ∧ (∀ i ∈ K, i ∈ survivors e.2 mmax) ∧
        (∀ i ∈ K, rawValue cosmo e.2 "redshift" i ≤ zmax) ∧
        o.2.cols = (peParams.map fun name => (name, K.map (rawValue cosmo e.2 name))) ++ [("prior", K.map fun i =>
          peDensity ps (interp 1000 (zNode zmax) (if e.2.zprior = "euclidean" then pe else pc))
            (rawValue cosmo e.2 "redshift" i) (rawValue cosmo e.2 "mass_1" i))]) cat full := by
  obtain ⟨k, hk, hk', hF⟩ := processed_spec hch hd
  have hcol : ∀ o ∈ d, ∃ e ∈ cat, ∃ K, ConsistsOf cosmo e o K := by
    intro o ho
    obtain ⟨e, he, K, hc, -⟩ := forall2_mem_right hF ho
    exact ⟨e, he, K, hc⟩
  have hget : ∀ o ∈ d, ∀ name ∈ ["redshift", "mass_1"], o.2.cols.get? name =
      some ((List.range o.2.n).map fun j => ((o.2.cols.get? name).getD []).getD j 0) := by
    intro o ho name hn
    obtain ⟨e, -, K, -, h2, -, h4⟩ := hcol o ho
    have hg : o.2.cols.get? name = some (K.map fun i => sampleValue cosmo e.2 name (e.2.row i)) := by
      rw [h4]
      simp only [List.mem_cons, List.not_mem_nil, or_false] at hn
      rcases hn with rfl | rfl <;> simp [peParams, PyDict.get?]
    rw [hg, h2]
    simp only [Option.getD_some]
    rw [range_getD_map]
  have hdne : d ≠ [] := by
    rintro rfl
    cases hF
    exact hne rfl
  obtain ⟨zm, pe, pc, full, g1, g2, g3, g4, -, g5⟩ := C84_rows hf hm hd0 hs hist hh ps hdne
    (fun o j => ((o.2.cols.get? "redshift").getD []).getD j 0) (fun o j => ((o.2.cols.get? "mass_1").getD []).getD j 0)
    (fun o ho => hget o ho _ (by decide)) (fun o ho => hget o ho _ (by decide)) (fun o ho => by
      obtain ⟨e, he, K, -, -, h3, -⟩ := hcol o ho
      rw [h3]; exact hp e he)
  refine ⟨k, hk, hk', zm, pe, pc, full, g3, g1, g2, ?_⟩
  have hmid' : List.Forall₂ (fun e o => (∀ j < o.2.n, ((o.2.cols.get? "redshift").getD []).getD j 0 ≤ zm) ∧ ∃ K : List ℕ, ConsistsOf cosmo e o K ∧
      K.length = k ∧ k ≤ (survivors e.2 mmax).length ∧ K.Nodup ∧ ∀ i ∈ K, i ∈ survivors e.2 mmax) cat d :=
    forall2_imp_mem hF fun e o _ ho h => ⟨g4 o ho, h⟩
  clear hF hk' hget hcol hdne hne hd hp g2 g4
  induction hmid' generalizing full with
  | nil => cases g5; exact .nil
  | @cons e o cat D h _ ih =>
    cases g5 with
    | cons ho hrest =>
      refine .cons ?_ (ih _ hrest)
      obtain ⟨hzo, K, ⟨h1, h2, h3, h4⟩, h5, -, h7, h8⟩ := h
      obtain ⟨q1, q2, q3⟩ := ho
      have hr : o.2.cols.get? "redshift" = some (K.map (rawValue cosmo e.2 "redshift")) := by
        rw [h4]; simp [peParams, PyDict.get?, rawValue]
      have hm1 : o.2.cols.get? "mass_1" = some (K.map (rawValue cosmo e.2 "mass_1")) := by
        rw [h4]; simp [peParams, PyDict.get?, rawValue]
      refine ⟨q1.trans h1, K, h5, (q2.trans h2).trans h5, h7, h8, ?_, ?_⟩
      · intro i hi
        obtain ⟨j, hj, rfl⟩ := List.getElem_of_mem hi
        have := hzo j (by rw [h2]; exact hj)
        rw [hr] at this
        simpa [List.getD_eq_getElem?_getD, List.getElem?_eq_getElem hj] using this
      · rw [q3, hr, hm1, h4, h2, h3]
        congr 3
        refine range_getD K _ _ fun j hj => ?_
        simp [List.getD_eq_getElem?_getD, List.getElem?_eq_getElem hj]

theorem rows_get? (d : EvData) (k : String) : d.rows.get? k = (d.cols.get? k).map fun l => l.map fin := by
  unfold EvData.rows
  generalize d.cols = c
  induction c with
  | nil => rfl
  | cons a c ih =>
    obtain ⟨k', v⟩ := a
    by_cases h : k' = k
    · simp [PyDict.get?, h]
    · simpa [PyDict.get?, h] using ih

theorem rows_keys (d : EvData) : d.rows.keys = d.cols.keys := by
  simp [EvData.rows, PyDict.keys, List.map_map, Function.comp_def]

/-- **C104 (posterior data set).** Every event of the catalogue is in the data set, in order, with exactly the requested rows and the prior;
row `j` of every parameter of an event is about the same raw sample; all events have the same number of distinct samples, the smallest number of samples any event has left after the
mass cut but at most 10000, all surviving the cut; the prior is the sampling density of the requested parameters at that very sample. -/
theorem C104_posterior {p : Par} (hf : Flat p) {max_z dz0 : ℝ} (hm : 0 < max_z) (hd0 : 0 < dz0) {s0 : Obj}
    (hs : init p max_z dz0 = .ok s0) (hist : List Op) (hh : ∀ op ∈ hist, op.Ok) {ps : List String} (hps : ∀ k ∈ ps, k ∈ peParams)
    {cosmo : Obj} {cat : List (String × PEEvent)} {mmax : ℝ} {choice : String → ℕ → ℕ → List ℕ} (hch : ValidChoice choice)
    {d : List (String × EvData)} (hd : processed cosmo cat mmax choice = .ok d) (hne : cat ≠ [])
    (hp : ∀ e ∈ cat, e.2.zprior = "euclidean" ∨ e.2.zprior = "comoving") :
    ∃ k ≤ 10000, (k = 10000 ∨ ∃ e ∈ cat, k = (survivors e.2 mmax).length) ∧ ∃ (zmax : ℝ) (pe pc : ℕ → ℝ) (out : List PERows), 1.9 ≤ zmax ∧
      ("redshift" ∈ ps → ZDensities p (s0.run hist) zmax pe pc) ∧
      loadPosterior iso joint cosmo (s0.run hist) choice cat mmax ps = .ok out ∧
      List.Forall₂ (fun e o => o.1 = e.1 ∧ ∃ K : List ℕ, K.length = k ∧ K.Nodup ∧ (∀ i ∈ K, i ∈ survivors e.2 mmax) ∧
        (∀ i ∈ K, rawValue cosmo e.2 "redshift" i ≤ zmax) ∧
        Requested o.2 ps K (fun name i => fin (rawValue cosmo e.2 name i)) (fun i => fin (
          peDensity ps (interp 1000 (zNode zmax) (if e.2.zprior = "euclidean" then pe else pc))
            (rawValue cosmo e.2 "redshift" i) (rawValue cosmo e.2 "mass_1" i)))) cat out := by
  obtain ⟨k, hk, hk', zmax, pe, pc, full, g1, g2, g3, g4⟩ := appended_spec hf hm hd0 hs hist hh ps hch hd hne hp
  have hce : "chi_eff" ∉ ps := fun h => absurd (hps _ h) (by decide)
  have hprior : "prior" ∉ ps := fun h => absurd (hps _ h) (by decide)
  have key : ∀ (cat : List (String × PEEvent)) (full : List (String × EvData)),
      List.Forall₂ (fun e o => o.1 = e.1 ∧ ∃ K : List ℕ, K.length = k ∧ o.2.n = k ∧ K.Nodup ∧ (∀ i ∈ K, i ∈ survivors e.2 mmax) ∧
        (∀ i ∈ K, rawValue cosmo e.2 "redshift" i ≤ zmax) ∧
        o.2.cols = (peParams.map fun name => (name, K.map (rawValue cosmo e.2 name))) ++ [("prior", K.map fun i =>
          peDensity ps (interp 1000 (zNode zmax) (if e.2.zprior = "euclidean" then pe else pc))
            (rawValue cosmo e.2 "redshift" i) (rawValue cosmo e.2 "mass_1" i))]) cat full →
      ∃ out, mapE (fun (o : String × EvData) => (keepParams o.2.rows ps).map fun r => (o.1, r)) full = .ok out ∧
        List.Forall₂ (fun e o => o.1 = e.1 ∧ ∃ K : List ℕ, K.length = k ∧ K.Nodup ∧ (∀ i ∈ K, i ∈ survivors e.2 mmax) ∧
        (∀ i ∈ K, rawValue cosmo e.2 "redshift" i ≤ zmax) ∧
        Requested o.2 ps K (fun name i => fin (rawValue cosmo e.2 name i)) (fun i => fin (
          peDensity ps (interp 1000 (zNode zmax) (if e.2.zprior = "euclidean" then pe else pc))
            (rawValue cosmo e.2 "redshift" i) (rawValue cosmo e.2 "mass_1" i)))) cat out := by
    intro cat full h
    induction h with
    | nil => exact ⟨[], rfl, .nil⟩
    | @cons e o cat full h _ ih =>
      obtain ⟨out, h1, h2⟩ := ih
      obtain ⟨q1, K, q2, -, q3, q4, q5, q6⟩ := h
      have hkeys : o.2.rows.keys = peParams ++ ["prior"] := by
        rw [rows_keys, q6]; simp [PyDict.keys, List.map_map, Function.comp_def]
      obtain ⟨r, hr1, hr2⟩ := keep_requested (rows := o.2.rows) (ps := ps) (K := K)
        (val := fun name i => fin (rawValue cosmo e.2 name i)) (prior := fun i => fin (
          peDensity ps (interp 1000 (zNode zmax) (if e.2.zprior = "euclidean" then pe else pc))
            (rawValue cosmo e.2 "redshift" i) (rawValue cosmo e.2 "mass_1" i)))
        (by rw [hkeys]; decide) (fun k hk => by rw [hkeys]; exact List.mem_append_left _ (hps k hk)) (by rw [hkeys]; simp) hprior
        (fun k hk => by
          rw [rows_get?, q6]
          have := hps k hk
          simp only [peParams, List.mem_cons, List.not_mem_nil, or_false] at this
          rcases this with rfl | rfl | rfl | rfl | rfl | rfl | rfl | rfl <;> simp [peParams, PyDict.get?, Function.comp_def])
        (by rw [rows_get?, q6]; simp [peParams, PyDict.get?, Function.comp_def])
      refine ⟨(o.1, r) :: out, ?_, .cons ⟨q1, K, q2, q3, q4, q5, hr2⟩ h2⟩
      refine mapE_of (.cons ?_ (mapE_ok h1))
      simp only [hr1, Except.map]
  obtain ⟨out, h1, h2⟩ := key cat full g4
  refine ⟨k, hk, hk', zmax, pe, pc, out, g1, g2, ?_, h2⟩
  unfold loadPosterior
  simp only [hd, g3, bind, Except.bind, if_neg hce, h1]

/-- the samples handed to the conversion, from the rows of the catalogue -/
theorem peSamples_spec {o : EvData} {cosmo : Obj} {e : PEEvent} {K : List ℕ} {k : ℕ} {D : ℕ → ℝ} (hk : K.length = k) (hn : o.n = k)
    (hc : o.cols = (peParams.map fun name => (name, K.map (rawValue cosmo e name))) ++ [("prior", K.map D)]) :
    peSamples o = .ok (K.map fun i => ⟨rawValue cosmo e "mass_ratio" i, rawValue cosmo e "a_1" i, rawValue cosmo e "a_2" i,
      rawValue cosmo e "cos_tilt_1" i, rawValue cosmo e "cos_tilt_2" i, D i⟩) := by
  have hr : ∀ name ∈ ["mass_ratio", "a_1", "a_2", "cos_tilt_1", "cos_tilt_2"], o.row name = .ok (K.map (rawValue cosmo e name)) := by
    intro name hname
    unfold EvData.row
    rw [hc]
    simp only [List.mem_cons, List.not_mem_nil, or_false] at hname
    rcases hname with rfl | rfl | rfl | rfl | rfl <;> simp [peParams, PyDict.get?]
  have hpr : o.row "prior" = .ok (K.map D) := by
    unfold EvData.row
    rw [hc]
    simp [peParams, PyDict.get?]
  unfold peSamples
  rw [hr _ (by decide), hr _ (by decide), hr _ (by decide), hr _ (by decide), hr _ (by decide), hpr]
  simp only [bind, Except.bind, pure, Except.pure, hn, ← hk]
  congr 1
  refine range_getD K _ _ fun j hj => ?_
  simp [List.getD_eq_getElem?_getD, List.getElem?_eq_getElem hj]

/-- **C104 (effective precession) is false of the code:** a posterior data set with `chi_eff` and `chi_p` can never be loaded. -/
theorem C104_chip_fails (iso : ℝ → ℝ → Except PyErr F) (joint : ℝ → ℝ → ℝ → Except PyErr F) (cosmo s : Obj)
    (choice : String → ℕ → ℕ → List ℕ) (cat : List (String × PEEvent)) (mmax : ℝ) {ps : List String}
    (hce : "chi_eff" ∈ ps) (hcp : "chi_p" ∈ ps) : ∃ e, loadPosterior iso joint cosmo s choice cat mmax ps = .error e := by
  unfold loadPosterior
  simp only [bind, Except.bind]
  split
  · exact ⟨_, rfl⟩
  rename_i d _
  split
  · exact ⟨_, rfl⟩
  rename_i full _
  rw [if_pos hce]
  unfold convertPERows
  simp only [bind, Except.bind]
  cases mapE (fun (o : String × EvData) => peSamples o.2) full with
  | error e => exact ⟨e, rfl⟩
  | ok samples =>
    obtain ⟨e, he, -⟩ := C88_chip_fails iso joint hcp samples (sampleCount full)
    simp only [he]
    exact ⟨e, rfl⟩

/-- **C104 (effective spin), partial** (missing: the spin density of the prior, C86, and the names, as for injections).  With `chi_eff`
requested each event has the rows shown, over the same raw samples; the prior is the sampling density of the requested parameters, divided by
`(2 π a₁²)(2 π a₂²)`, times the density of the effective spin. -/
theorem C104_posterior_chieff_partial {p : Par} (hf : Flat p) {max_z dz0 : ℝ} (hm : 0 < max_z) (hd0 : 0 < dz0) {s0 : Obj}
    (hs : init p max_z dz0 = .ok s0) (hist : List Op) (hh : ∀ op ∈ hist, op.Ok) {ps : List String} (hce : "chi_eff" ∈ ps) (hcp : "chi_p" ∉ ps)
    {v : ℝ → ℝ → ℝ} (hv : ∀ x q, iso x q = .ok (fin (v x q)))
    {cosmo : Obj} {cat : List (String × PEEvent)} {mmax : ℝ} {choice : String → ℕ → ℕ → List ℕ} (hch : ValidChoice choice)
    {d : List (String × EvData)} (hd : processed cosmo cat mmax choice = .ok d) (hne : cat ≠ [])
    (hp : ∀ e ∈ cat, e.2.zprior = "euclidean" ∨ e.2.zprior = "comoving")
    (hspin : ∀ e ∈ cat, ∀ i ∈ survivors e.2 mmax, rawValue cosmo e.2 "a_1" i ≠ 0 ∧ rawValue cosmo e.2 "a_2" i ≠ 0) :
    ∃ k ≤ 10000, (k = 10000 ∨ ∃ e ∈ cat, k = (survivors e.2 mmax).length) ∧ ∃ (zmax : ℝ) (pe pc : ℕ → ℝ) (out : List PERows), 1.9 ≤ zmax ∧
      ("redshift" ∈ ps → ZDensities p (s0.run hist) zmax pe pc) ∧
      loadPosterior iso joint cosmo (s0.run hist) choice cat mmax ps = .ok out ∧
      List.Forall₂ (fun e o => o.1 = e.1 ∧ ∃ K : List ℕ, K.length = k ∧ K.Nodup ∧ (∀ i ∈ K, i ∈ survivors e.2 mmax) ∧
        (let x := fun i => (rawValue cosmo e.2 "a_1" i * rawValue cosmo e.2 "cos_tilt_1" i +
            rawValue cosmo e.2 "mass_ratio" i * rawValue cosmo e.2 "a_2" i * rawValue cosmo e.2 "cos_tilt_2" i) / (1 + rawValue cosmo e.2 "mass_ratio" i)
         o.2 = [("mass_1", K.map fun i => fin (rawValue cosmo e.2 "mass_1" i)),
          (if "mass_2" ∈ ps then ("mass_2", K.map fun i => fin (rawValue cosmo e.2 "mass_2" i))
            else ("mass_ratio", K.map fun i => fin (rawValue cosmo e.2 "mass_ratio" i))),
          ("redshift", K.map fun i => fin (rawValue cosmo e.2 "redshift" i)), ("chi_eff", K.map fun i => fin (x i)),
          ("prior", K.map fun i => fin (peDensity ps (interp 1000 (zNode zmax) (if e.2.zprior = "euclidean" then pe else pc))
            (rawValue cosmo e.2 "redshift" i) (rawValue cosmo e.2 "mass_1" i) /
              ((2 * Real.pi * rawValue cosmo e.2 "a_1" i ^ 2) * (2 * Real.pi * rawValue cosmo e.2 "a_2" i ^ 2)) *
              v (x i) (rawValue cosmo e.2 "mass_ratio" i)))])) cat out := by
  obtain ⟨k, hk, hk', zmax, pe, pc, full, g1, g2, g3, g4⟩ := appended_spec hf hm hd0 hs hist hh ps hch hd hne hp
  let D := fun (e : PEEvent) i => peDensity ps (interp 1000 (zNode zmax) (if e.zprior = "euclidean" then pe else pc))
            (rawValue cosmo e "redshift" i) (rawValue cosmo e "mass_1" i)
  let X := fun (e : PEEvent) i => chieff (rawValue cosmo e "mass_ratio" i) (rawValue cosmo e "a_1" i) (rawValue cosmo e "a_2" i)
      (rawValue cosmo e "cos_tilt_1" i) (rawValue cosmo e "cos_tilt_2" i)
  let P := fun (e : PEEvent) i => D e i / ((2 * Real.pi * rawValue cosmo e "a_1" i ^ 2) * (2 * Real.pi * rawValue cosmo e "a_2" i ^ 2)) *
      v (X e i) (rawValue cosmo e "mass_ratio" i)
  have key : ∀ (cat : List (String × PEEvent)) (full : List (String × EvData)),
      (∀ e ∈ cat, ∀ i ∈ survivors e.2 mmax, rawValue cosmo e.2 "a_1" i ≠ 0 ∧ rawValue cosmo e.2 "a_2" i ≠ 0) →
      List.Forall₂ (fun e o => o.1 = e.1 ∧ ∃ K : List ℕ, K.length = k ∧ o.2.n = k ∧ K.Nodup ∧ (∀ i ∈ K, i ∈ survivors e.2 mmax) ∧
        (∀ i ∈ K, rawValue cosmo e.2 "redshift" i ≤ zmax) ∧
        o.2.cols = (peParams.map fun name => (name, K.map (rawValue cosmo e.2 name))) ++ [("prior", K.map (D e.2))]) cat full →
      ∃ samples conv old out, mapE (fun (o : String × EvData) => peSamples o.2) full = .ok samples ∧
        mapE (mapE (chieffSample iso)) samples = .ok conv ∧
        mapE (fun (o : String × EvData) => (dropSel o.2.rows ["prior"]).map fun r => (o.1, r)) full = .ok old ∧
        mapE (fun (o : PERows) => (dropSel o.2 (removedForChieff ps)).map fun r => (o.1, r))
          (List.zipWith (fun (o : PERows) l => (o.1, o.2 ++ [("chi_eff", l.map fun t => F.fin t.1), ("prior", l.map fun t => t.2)])) old conv) = .ok out ∧
        List.Forall₂ (fun e o => o.1 = e.1 ∧ ∃ K : List ℕ, K.length = k ∧ K.Nodup ∧ (∀ i ∈ K, i ∈ survivors e.2 mmax) ∧
          o.2 = [("mass_1", K.map fun i => fin (rawValue cosmo e.2 "mass_1" i)),
          (if "mass_2" ∈ ps then ("mass_2", K.map fun i => fin (rawValue cosmo e.2 "mass_2" i))
            else ("mass_ratio", K.map fun i => fin (rawValue cosmo e.2 "mass_ratio" i))),
          ("redshift", K.map fun i => fin (rawValue cosmo e.2 "redshift" i)), ("chi_eff", K.map fun i => fin (X e.2 i)),
          ("prior", K.map fun i => fin (P e.2 i))]) cat out := by
    intro cat full hspin h
    induction h with
    | nil => exact ⟨[], [], [], [], rfl, rfl, rfl, rfl, .nil⟩
    | @cons e o cat full h _ ih =>
      obtain ⟨samples, conv, old, out, h1, h2, h3, h4, h5⟩ := ih fun e he => hspin e (List.mem_cons_of_mem _ he)
      obtain ⟨q1, K, q2, q3, q4, q5, -, q6⟩ := h
      have e1 := peSamples_spec q2 q3 q6
      have e2 : mapE (chieffSample iso) (K.map fun i => ⟨rawValue cosmo e.2 "mass_ratio" i, rawValue cosmo e.2 "a_1" i, rawValue cosmo e.2 "a_2" i,
          rawValue cosmo e.2 "cos_tilt_1" i, rawValue cosmo e.2 "cos_tilt_2" i, D e.2 i⟩) = .ok (K.map fun i => (X e.2 i, fin (P e.2 i))) := by
        refine mapE_map _ _ _ _ fun i hi => ?_
        obtain ⟨ha, hb⟩ := hspin e (List.mem_cons_self ..) i (q5 i hi)
        have hj : (2 * Real.pi * rawValue cosmo e.2 "a_1" i ^ 2) * (2 * Real.pi * rawValue cosmo e.2 "a_2" i ^ 2) ≠ 0 := by
          have := Real.pi_pos.ne'
          positivity
        unfold chieffSample
        simp only [hv, newPrior, F.div_fin hj, F.mul_fin]
        rfl
      have e3 : dropSel o.2.rows ["prior"] = .ok (peParams.map fun name => (name, K.map fun i => fin (rawValue cosmo e.2 name i))) := by
        unfold dropSel
        rw [rows_keys, q6]
        simp [PyDict.keys, EvData.rows, q6, peParams, Function.comp_def]
      refine ⟨_, _, _, (e.1, [("mass_1", K.map fun i => fin (rawValue cosmo e.2 "mass_1" i)),
          (if "mass_2" ∈ ps then ("mass_2", K.map fun i => fin (rawValue cosmo e.2 "mass_2" i))
            else ("mass_ratio", K.map fun i => fin (rawValue cosmo e.2 "mass_ratio" i))),
          ("redshift", K.map fun i => fin (rawValue cosmo e.2 "redshift" i)), ("chi_eff", K.map fun i => fin (X e.2 i)),
          ("prior", K.map fun i => fin (P e.2 i))]) :: out, mapE_of (.cons e1 (mapE_ok h1)), mapE_of (.cons e2 (mapE_ok h2)),
          mapE_of (.cons (by simp only [e3, Except.map]; rfl) (mapE_ok h3)), ?_, .cons ⟨rfl, K, q2, q4, q5, rfl⟩ h5⟩
      refine mapE_of (.cons ?_ (mapE_ok h4))
      have e4 : dropSel ((peParams.map fun name => (name, K.map fun i => fin (rawValue cosmo e.2 name i))) ++
          [("chi_eff", (K.map fun i => (X e.2 i, fin (P e.2 i))).map fun t => fin t.1), ("prior", (K.map fun i => (X e.2 i, fin (P e.2 i))).map fun t => t.2)])
          (removedForChieff ps) = .ok [("mass_1", K.map fun i => fin (rawValue cosmo e.2 "mass_1" i)),
          (if "mass_2" ∈ ps then ("mass_2", K.map fun i => fin (rawValue cosmo e.2 "mass_2" i))
            else ("mass_ratio", K.map fun i => fin (rawValue cosmo e.2 "mass_ratio" i))),
          ("redshift", K.map fun i => fin (rawValue cosmo e.2 "redshift" i)), ("chi_eff", K.map fun i => fin (X e.2 i)),
          ("prior", K.map fun i => fin (P e.2 i))] := by
        unfold dropSel removedForChieff PyDict.keys
        by_cases hm2 : "mass_2" ∈ ps <;> simp [hm2, peParams, Function.comp_def]
      rw [e4]
      simp only [Except.map, q1]
  obtain ⟨samples, conv, old, out, h1, h2, h3, h4, h5⟩ := key cat full hspin g4
  refine ⟨k, hk, hk', zmax, pe, pc, out, g1, g2, ?_, h5⟩
  unfold loadPosterior convertPERows convertPE
  simp only [hd, g3, bind, Except.bind, if_pos hce, if_neg hcp, h1, h2, h3, pure, Except.pure, h4]

/-! ## the file -/

/-- **C104 (round trip).** What the inference stage reads back is what was saved under that name: for every parameter of the posterior data
set one array with one row per event, in order; the injection rows; the number generated, the analysis time and the number of events.
Whatever else is saved under other names in between. -/
theorem C104_round_trip {fs fs' : PyDict SavedData} {name : String} {pe : List PERows} {inj : InjArray} (h : saveIdata fs name pe inj = .ok fs')
    (others : List (String × List PERows × InjArray)) (hne : ∀ o ∈ others, o.1 ≠ name)
    {ps : List String} (hkeys : ∀ o ∈ pe, PyDict.keys o.2 = ps) (hpe : pe ≠ []) :
    ∃ r, loadIdata (others.foldl (fun fs o => match saveIdata fs o.1 o.2.1 o.2.2 with | .ok fs => fs | .error _ => fs) fs') name = .ok r ∧
      r.param_names = ps ∧ r.pedict.keys = ps ∧
      (∀ k ∈ ps, r.pedict.get? k = some (pe.map fun o => (PyDict.get? o.2 k).getD [])) ∧
      r.injdict = inj.rows ∧ r.total_inj = inj.total_generated ∧ r.obs_time = inj.analysis_time ∧ r.nObs = pe.length := by
  have hget : ∀ fs : PyDict SavedData, fs.get? name = some ⟨pe, inj⟩ →
      (others.foldl (fun fs o => match saveIdata fs o.1 o.2.1 o.2.2 with | .ok fs => fs | .error _ => fs) fs).get? name = some ⟨pe, inj⟩ := by
    clear h
    induction others with
    | nil => exact fun _ h => h
    | cons o l ih =>
      intro fs hfs
      refine ih (fun o ho => hne o (List.mem_cons_of_mem _ ho)) _ ?_
      unfold saveIdata
      by_cases hx : strIn ".h5" o.1
      · simp only [hx, not_true, if_false]
        rw [PyDict.get?_set_ne]
        · exact hfs
        · exact (hne o (List.mem_cons_self ..)).symm
      · simpa [hx] using hfs
  have h0 : fs'.get? name = some ⟨pe, inj⟩ := by
    unfold saveIdata at h
    split at h
    · cases h
    · rw [← Except.ok.inj h, PyDict.get?_set_self]
  obtain ⟨o, l, rfl⟩ := List.exists_cons_of_ne_nil hpe
  have hk0 : PyDict.keys o.2 = ps := hkeys o (List.mem_cons_self ..)
  refine ⟨_, by
    unfold loadIdata
    rw [hget _ h0]
    rfl, hk0, ?_, ?_, rfl, rfl, rfl, rfl⟩
  · simp [PyDict.keys, List.map_map, Function.comp_def] at hk0 ⊢
    exact hk0
  · intro k hk
    have gen : ∀ (ks : List String) (g : String → List (List F)), k ∈ ks → PyDict.get? (ks.map fun k => (k, g k)) k = some (g k) := by
      intro ks g
      induction ks with
      | nil => intro h; cases h
      | cons a ks ih =>
        intro h
        by_cases ha : a = k
        · simp [PyDict.get?, ha]
        · have : k ∈ ks := by
            rcases List.mem_cons.1 h with h | h
            · exact absurd h.symm ha
            · exact h
          simpa [PyDict.get?, ha] using ih this
    have := gen (PyDict.keys o.2) (fun k => (o :: l).map fun o => (PyDict.get? o.2 k).getD []) (by rw [hk0]; exact hk)
    simpa using this

/-- **C104 (ignored events).** Reading with a list of events to ignore keeps exactly the other events, in order, for every parameter, and
changes nothing else. -/
theorem C104_ignored_partial {fs : PyDict SavedData} {name : String} {r : Loaded} (h : loadIdata fs name = .ok r) (ig : List String) :
    ∃ r' pe inj, fs.get? name = some ⟨pe, inj⟩ ∧ loadIdata fs name (some ig) = .ok r' ∧
      r'.pedict.keys = r.pedict.keys ∧
      (∀ k, r'.pedict.get? k = (r.pedict.get? k).map fun _ => (pe.filter fun o => decide (o.1 ∉ ig)).map fun o => (PyDict.get? o.2 k).getD []) ∧
      r'.injdict = r.injdict ∧ r'.total_inj = r.total_inj ∧ r'.obs_time = r.obs_time ∧ r'.param_names = r.param_names := by
  unfold loadIdata at h ⊢
  cases hd : fs.get? name with
  | none => rw [hd] at h; cases h
  | some d =>
    rw [hd] at h
    have h := Except.ok.inj h
    subst h
    refine ⟨_, d.pe, d.inj, rfl, rfl, ?_, ?_, rfl, rfl, rfl, rfl⟩
    · simp [PyDict.keys, Function.comp_def]
    · intro k
      have gen : ∀ (ks : List String) (g g' : String → List (List F)),
          PyDict.get? (ks.map fun k => (k, g' k)) k = (PyDict.get? (ks.map fun k => (k, g k)) k).map fun _ => g' k := by
        intro ks g g'
        induction ks with
        | nil => rfl
        | cons a ks ih =>
          by_cases ha : a = k
          · subst ha; simp [PyDict.get?]
          · simpa [PyDict.get?, ha] using ih
      exact gen _ _ _

/-- **C104 is false of the number of events when some are ignored:** it still counts every event of the file, so it is too large as soon as
an event of the file is ignored. -/
theorem C104_ignored_count_fails {fs : PyDict SavedData} {name : String} {pe : List PERows} {inj : InjArray} (h : fs.get? name = some ⟨pe, inj⟩)
    {ig : List String} {o : PERows} (ho : o ∈ pe) (hig : o.1 ∈ ig) :
    ∃ r, loadIdata fs name (some ig) = .ok r ∧ r.nObs = pe.length ∧ (pe.filter fun o => decide (o.1 ∉ ig)).length < r.nObs := by
  refine ⟨_, by
    unfold loadIdata
    rw [h]
    rfl, rfl, ?_⟩
  exact List.length_filter_lt_length_iff_exists.2 ⟨o, ho, by simpa using hig⟩

/-- two events, one ignored -/
example (inj : InjArray) : ∃ r, loadIdata [("c.h5", ⟨[("GW1", [("mass_1", [fin 30])]), ("GW2", [("mass_1", [fin 40])])], inj⟩)] "c.h5" (some ["GW1"]) = .ok r ∧
    r.nObs = 2 ∧ r.pedict.get? "mass_1" = some [[fin 40]] := by
  refine ⟨_, rfl, rfl, ?_⟩
  simp [PyDict.get?, PyDict.keys]

/-- **C104 (file name).** Saving is refused exactly when the name does not contain `.h5`. -/
theorem C104_name (fs : PyDict SavedData) (name : String) (pe : List PERows) (inj : InjArray) :
    saveIdata fs name pe inj = .error .assertionError ↔ ¬ ".h5".toList <:+: name.toList := by
  unfold saveIdata strIn
  split <;> simp_all

/-- **C104 (file name) is false of the code:** the message asks for the extension `.h5`, but a name with another extension is accepted. -/
theorem C104_extension_fails (fs : PyDict SavedData) (pe : List PERows) (inj : InjArray) (stem ext : String) :
    ∃ fs', saveIdata fs (stem ++ ".h5" ++ ext) pe inj = .ok fs' := by
  unfold saveIdata
  rw [if_neg]
  · exact ⟨_, rfl⟩
  · rw [not_not]
    unfold strIn
    refine ⟨stem.toList, ext.toList, ?_⟩
    simp

/-- A catalogue of two events with the default cosmology meets the hypotheses, for the component-spin and the effective-spin analyses. -/
example : ∃ s0 out out', init planck2015LVK 10 0.001 = .ok s0 ∧
    loadPosterior (fun _ _ => .ok (fin 1)) joint s0 (s0.run []) (fun _ _ k => List.range k) [("GW1", demoEvent), ("GW2", demoEvent)] 100
      ["mass_1", "mass_ratio", "redshift", "a_1"] = .ok out ∧
    loadPosterior (fun _ _ => .ok (fin 1)) joint s0 (s0.run []) (fun _ _ k => List.range k) [("GW1", demoEvent), ("GW2", demoEvent)] 100
      ["mass_1", "mass_ratio", "redshift", "chi_eff"] = .ok out' := by
  obtain ⟨s0, hs⟩ := (C52_constructor planck2015LVK 10 0.001).1 planck_flat.2.flat
  obtain ⟨d, hd⟩ := demo_processed s0 100
  obtain ⟨_, _, _, _, _, _, out, _, _, h, _⟩ := C104_posterior (iso := fun _ _ => .ok (fin 1)) (joint := joint) planck_flat.2 (by norm_num) (by norm_num) hs []
    (by simp) (ps := ["mass_1", "mass_ratio", "redshift", "a_1"]) (by decide) demo_choice hd (by simp) (by simp [demoEvent])
  obtain ⟨_, _, _, _, _, _, out', _, _, h', _⟩ := C104_posterior_chieff_partial (iso := fun _ _ => .ok (fin 1)) (joint := joint) planck_flat.2 (by norm_num)
    (by norm_num) hs [] (by simp) (ps := ["mass_1", "mass_ratio", "redshift", "chi_eff"]) (by decide) (by decide) (v := fun _ _ => 1) (fun _ _ => rfl)
    demo_choice hd (by simp) (by simp [demoEvent]) (by
      intro e he i hi
      have hi' : i < 2 := by simpa [survivors, demoEvent] using (by
        have := (List.mem_filter.1 hi).1
        simp only [List.mem_cons, List.not_mem_nil, or_false] at he
        rcases he with rfl | rfl <;> simpa [demoEvent] using this : i < 2)
      simp only [List.mem_cons, List.not_mem_nil, or_false] at he
      have : i = 0 ∨ i = 1 := by omega
      rcases he with rfl | rfl <;> rcases this with rfl | rfl <;> simp [rawValue, sampleValue, demoEvent, PEEvent.row])
  exact ⟨s0, out, out', hs, h, h'⟩

example (inj : InjArray) : ∃ fs', saveIdata [] "catalogue.h5" [("GW1", [("mass_1", [fin 30])]), ("GW2", [("mass_1", [fin 40])])] inj = .ok fs' :=
  C104_extension_fails [] _ inj "catalogue" ""

end GW
end
