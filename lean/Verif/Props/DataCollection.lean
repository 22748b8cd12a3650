import Verif.Model.DataCollection
import Verif.Props.Cosmology
import Verif.Lemmas.InterpIntegral
import Mathlib.Data.List.GetD
import Mathlib.Data.List.Nodup
import Mathlib.LinearAlgebra.Matrix.Determinant.Basic

/-!
# C68, C69, C83–C89: catalogue collection
-/

noncomputable section
open Classical
namespace GW
open Cosmo

/-! ### loops -/

theorem mapE_ok {α β : Type} {f : α → Except PyErr β} {l : List α} {bs : List β} (h : mapE f l = .ok bs) :
    List.Forall₂ (fun a b => f a = .ok b) l bs := by
  induction l generalizing bs with
  | nil => simp only [mapE, Except.ok.injEq] at h; subst h; exact .nil
  | cons a l ih =>
    simp only [mapE] at h
    cases hf : f a with
    | error e => rw [hf] at h; cases h
    | ok b =>
      rw [hf] at h
      cases hl : mapE f l with
      | error e => simp only [hl] at h; cases h
      | ok bs' =>
        simp only [hl, Except.ok.injEq] at h
        subst h
        exact .cons hf (ih hl)

theorem mapE_of {α β : Type} {f : α → Except PyErr β} {l : List α} {bs : List β}
    (h : List.Forall₂ (fun a b => f a = .ok b) l bs) : mapE f l = .ok bs := by
  induction h with
  | nil => rfl
  | cons h1 _ ih => simp only [mapE, h1, ih]

theorem except_map_ok {α β : Type} {x : Except PyErr α} {f : α → β} {b : β} (h : x.map f = .ok b) : ∃ a, x = .ok a ∧ f a = b := by
  cases x with
  | error e => cases h
  | ok a => exact ⟨a, rfl, by simpa [Except.map] using h⟩

theorem forall2_map {α β : Type} {g : α → β} {l : List α} {bs : List β} (h : List.Forall₂ (fun a b => b = g a) l bs) :
    bs = l.map g := by
  induction h with
  | nil => rfl
  | cons h1 _ ih => rw [h1, ih]; rfl

theorem forall2_mem_right {α β : Type} {R : α → β → Prop} {l : List α} {bs : List β} (h : List.Forall₂ R l bs) {b : β} (hb : b ∈ bs) :
    ∃ a ∈ l, R a b := by
  induction h with
  | nil => cases hb
  | cons h1 _ ih =>
    rcases List.mem_cons.1 hb with rfl | hb
    · exact ⟨_, List.mem_cons_self, h1⟩
    · obtain ⟨a, ha, h⟩ := ih hb; exact ⟨a, List.mem_cons_of_mem _ ha, h⟩

theorem forall2_mem_left {α β : Type} {R : α → β → Prop} {l : List α} {bs : List β} (h : List.Forall₂ R l bs) {a : α} (ha : a ∈ l) :
    ∃ b ∈ bs, R a b := by
  induction h with
  | nil => cases ha
  | cons h1 _ ih =>
    rcases List.mem_cons.1 ha with rfl | ha
    · exact ⟨_, List.mem_cons_self, h1⟩
    · obtain ⟨b, hb, h⟩ := ih ha; exact ⟨b, List.mem_cons_of_mem _ hb, h⟩

theorem forall2_imp_mem {α β : Type} {R S : α → β → Prop} {l : List α} {bs : List β} (h : List.Forall₂ R l bs)
    (hi : ∀ a b, a ∈ l → b ∈ bs → R a b → S a b) : List.Forall₂ S l bs := by
  induction h with
  | nil => exact .nil
  | cons h1 _ ih =>
    exact .cons (hi _ _ List.mem_cons_self List.mem_cons_self h1)
      (ih fun a b ha hb => hi a b (List.mem_cons_of_mem _ ha) (List.mem_cons_of_mem _ hb))

/-! ## specification -/

/-- `np.random.choice(arange(n), k, replace=False)`: any `k` distinct positions below `n` -/
def ValidChoice (choice : String → ℕ → ℕ → List ℕ) : Prop :=
  ∀ ev n k, k ≤ n → (choice ev n k).length = k ∧ (choice ev n k).Nodup ∧ ∀ i ∈ choice ev n k, i < n

/-- the value of an analysis parameter for one raw posterior sample `r` of an event -/
def sampleValue (cosmo : Obj) (e : PEEvent) (p : String) (r : String → ℝ) : ℝ :=
  if e.catalog = "GWTC-1" then
    let z := interp cosmo.n cosmo.DL cosmo.tab.z (r "luminosity_distance_Mpc")
    match p with
    | "mass_1" => r "m1_detector_frame_Msun" / (1 + z)
    | "mass_2" => r "m2_detector_frame_Msun" / (1 + z)
    | "mass_ratio" => r "m2_detector_frame_Msun" / (1 + z) / (r "m1_detector_frame_Msun" / (1 + z))
    | "redshift" => z
    | "a_1" => r "spin1"
    | "a_2" => r "spin2"
    | "cos_tilt_1" => r "costilt1"
    | "cos_tilt_2" => r "costilt2"
    | _ => 0
  else
    match p with
    | "mass_1" => r "mass_1_source"
    | "mass_2" => r "mass_2_source"
    | "mass_ratio" => r "mass_ratio"
    | "redshift" => r "redshift"
    | "a_1" => r "a_1"
    | "a_2" => r "a_2"
    | "cos_tilt_1" => r "cos_tilt_1"
    | "cos_tilt_2" => r "cos_tilt_2"
    | _ => 0

/-- the eight parameters of the processed catalogue -/
def peParams : List String := ["mass_1", "mass_2", "mass_ratio", "redshift", "a_1", "a_2", "cos_tilt_1", "cos_tilt_2"]

/-- the raw samples an event contributes, before down-sampling -/
def survives (e : PEEvent) (mmax : ℝ) (r : String → ℝ) : Prop :=
  e.catalog = "GWTC-1" ∨ (∀ r' ∈ e.rows, r' "mass_1_source" ≤ mmax) ∨ r "mass_1_source" < mmax

/-- sample `i` of an event -/
def PEEvent.row (e : PEEvent) (i : ℕ) : String → ℝ := e.rows.getD i fun _ => 0

/-- positions of the samples an event contributes before down-sampling -/
def survivors (e : PEEvent) (mmax : ℝ) : List ℕ := (List.range e.rows.length).filter fun i => decide (survives e mmax (e.row i))

/-! ### lists -/

theorem rows_eq (e : PEEvent) : e.rows = (List.range e.rows.length).map e.row := by
  apply List.ext_getElem
  · simp
  · intro i h1 h2
    simp [PEEvent.row, List.getD_eq_getElem?_getD, List.getElem?_eq_getElem h1]

theorem maskB_map {α : Type} (l : List α) (b : α → Bool) (f : α → ℝ) : maskB (l.map b) (l.map f) = (l.filter b).map f := by
  induction l with
  | nil => rfl
  | cons a l ih =>
    unfold maskB at ih ⊢
    simp only [List.map_cons, List.zip_cons_cons, List.filter_cons]
    cases h : b a <;> simp [ih]

theorem zipWith_map_map {α β γ δ : Type} (f : β → γ → δ) (l : List α) (a : α → β) (b : α → γ) :
    List.zipWith f (l.map a) (l.map b) = l.map fun x => f (a x) (b x) := by
  induction l with
  | nil => rfl
  | cons x l ih => simp [ih]

theorem gatherCol_map (idx J : List ℕ) (f : ℕ → ℝ) (h : ∀ i ∈ idx, i < J.length) :
    gatherCol idx (J.map f) = (idx.map fun i => J.getD i 0).map f := by
  unfold gatherCol
  rw [List.map_map]
  refine List.map_congr_left fun i hi => ?_
  have := h i hi
  simp [List.getD_eq_getElem?_getD, List.getElem?_eq_getElem this]

theorem massMask_eq (e : PEEvent) (hc : e.catalog ≠ "GWTC-1") (mmax : ℝ) :
    massMask mmax (e.rows.map fun r => r "mass_1_source") = e.rows.map fun r => decide (survives e mmax r) := by
  unfold massMask
  have hiff : (0 < ((e.rows.map fun r => r "mass_1_source").filter fun m => decide (m > mmax)).length) ↔
      ¬ ∀ r' ∈ e.rows, r' "mass_1_source" ≤ mmax := by
    rw [List.length_pos_iff_exists_mem]
    push Not
    constructor
    · rintro ⟨m, hm⟩
      obtain ⟨h1, h2⟩ := List.mem_filter.1 hm
      obtain ⟨r, hr, rfl⟩ := List.mem_map.1 h1
      exact ⟨r, hr, by simpa using h2⟩
    · rintro ⟨r, hr, h⟩
      exact ⟨r "mass_1_source", List.mem_filter.2 ⟨List.mem_map.2 ⟨r, hr, rfl⟩, by simpa using h⟩⟩
  by_cases h : ∀ r' ∈ e.rows, r' "mass_1_source" ≤ mmax
  · rw [if_neg (by rw [hiff]; exact fun h' => h' h), List.map_map]
    refine List.map_congr_left fun r _ => ?_
    have : survives e mmax r := .inr (.inl h)
    simp [this]
  · rw [if_pos (hiff.2 h), List.map_map]
    refine List.map_congr_left fun r _ => ?_
    have : survives e mmax r ↔ r "mass_1_source" < mmax := by simp [survives, hc, h]
    simp [this]

theorem filter_rows (e : PEEvent) (mmax : ℝ) :
    e.rows.filter (fun r => decide (survives e mmax r)) = (survivors e mmax).map e.row := by
  conv_lhs => rw [rows_eq e]
  rw [List.filter_map]
  rfl

/-- one event of the processed catalogue before down-sampling -/
structure Proc (cosmo : Obj) (e : PEEvent) (mmax : ℝ) (d : EvData) : Prop where
  n : d.n = (survivors e mmax).length
  cols : d.cols = peParams.map fun p => (p, (survivors e mmax).map fun i => sampleValue cosmo e p (e.row i))
  zprior : d.zprior = e.zprior

theorem col_ok {e : PEEvent} {f : String} {c : List ℝ} (h : e.col f = .ok c) : c = e.rows.map fun r => r f := by
  unfold PEEvent.col at h
  split at h
  · simpa using h.symm
  · cases h

theorem modern_proc {cosmo : Obj} {e : PEEvent} (hc : e.catalog ≠ "GWTC-1") {mmax : ℝ} {d : EvData} (h : modern e mmax = .ok d) :
    Proc cosmo e mmax d := by
  unfold modern at h
  simp only [bind, Except.bind, pure, Except.pure] at h
  cases h1 : e.col "mass_1_source" with
  | error er => rw [h1] at h; cases h
  | ok m1 =>
    rw [h1] at h
    simp only at h
    obtain rfl := col_ok h1
    rw [massMask_eq e hc] at h
    split at h
    · cases h
    rename_i cols hcols
    simp only [Except.ok.injEq] at h
    subst h
    have hF : cols = paramMapping.map fun pf => (pf.1, (survivors e mmax).map fun i => e.row i pf.2) := by
      refine forall2_map ((mapE_ok hcols).imp fun pf b hb => ?_)
      obtain ⟨c, hc1, rfl⟩ := except_map_ok hb
      rw [col_ok hc1, maskB_map, filter_rows, List.map_map]; rfl
    refine ⟨?_, ?_, rfl⟩
    · simp only
      rw [maskB_map, filter_rows]; simp
    · simp only [hF, paramMapping, peParams, List.map_cons, List.map_nil, sampleValue, if_neg hc]

theorem survivors_gwtc1 {e : PEEvent} (hc : e.catalog = "GWTC-1") (mmax : ℝ) : survivors e mmax = List.range e.rows.length := by
  unfold survivors
  rw [List.filter_eq_self]
  intro i _
  simp [survives, hc]

theorem gwtc1_proc {cosmo : Obj} {e : PEEvent} (hc : e.catalog = "GWTC-1") {mmax : ℝ} {d : EvData} (h : gwtc1 cosmo e = .ok d) :
    Proc cosmo e mmax d := by
  unfold gwtc1 at h
  simp only [bind, Except.bind, pure, Except.pure] at h
  split at h; · cases h
  rename_i dl hdl
  split at h; · cases h
  rename_i z hz
  split at h; · cases h
  rename_i d1 h1
  split at h; · cases h
  rename_i s1 h2
  split at h; · cases h
  rename_i t1 h3
  split at h; · cases h
  rename_i d2 h4
  split at h; · cases h
  rename_i s2 h5
  split at h; · cases h
  rename_i t2 h6
  simp only [Except.ok.injEq] at h
  subst h
  obtain rfl := col_ok hdl
  obtain rfl := col_ok h1
  obtain rfl := col_ok h2
  obtain rfl := col_ok h3
  obtain rfl := col_ok h4
  obtain rfl := col_ok h5
  obtain rfl := col_ok h6
  have hz' : z = e.rows.map fun r => interp cosmo.n cosmo.DL cosmo.tab.z (r "luminosity_distance_Mpc") := by
    unfold Obj.DL2z at hz
    split at hz
    · cases hz
    split at hz
    · cases hz
    split at hz
    · cases hz
    · simp only [Except.ok.injEq] at hz
      rw [← hz, List.map_map]; rfl
  subst hz'
  have hr : ∀ f : (String → ℝ) → ℝ, e.rows.map f = (survivors e mmax).map fun i => f (e.row i) := by
    intro f
    conv_lhs => rw [rows_eq e]
    rw [survivors_gwtc1 hc, List.map_map]; rfl
  refine ⟨?_, ?_, rfl⟩
  · simp [survivors_gwtc1 hc]
  · simp only [zipWith_map_map, hr, peParams, List.map_cons, List.map_nil, sampleValue, if_pos hc]

theorem processEvent_proc {cosmo : Obj} {e : PEEvent} {mmax : ℝ} {d : EvData} (h : processEvent cosmo mmax e = .ok d) :
    Proc cosmo e mmax d := by
  unfold processEvent at h
  split at h
  · exact gwtc1_proc ‹_› h
  · exact modern_proc ‹_› h

theorem foldl_min_le (ds : List (String × EvData)) (m0 : ℕ) :
    ds.foldl (fun m d => min d.2.n m) m0 ≤ m0 ∧ ∀ d ∈ ds, ds.foldl (fun m d => min d.2.n m) m0 ≤ d.2.n := by
  induction ds generalizing m0 with
  | nil => simp
  | cons a ds ih =>
    obtain ⟨h1, h2⟩ := ih (min a.2.n m0)
    simp only [List.foldl_cons]
    refine ⟨h1.trans (min_le_right _ _), ?_⟩
    intro d hd
    rcases List.mem_cons.1 hd with rfl | hd
    · exact h1.trans (min_le_left _ _)
    · exact h2 d hd

theorem foldl_min_mem (ds : List (String × EvData)) (m0 : ℕ) :
    ds.foldl (fun m d => min d.2.n m) m0 = m0 ∨ ∃ d ∈ ds, ds.foldl (fun m d => min d.2.n m) m0 = d.2.n := by
  induction ds generalizing m0 with
  | nil => simp
  | cons a ds ih =>
    simp only [List.foldl_cons]
    rcases ih (min a.2.n m0) with h | ⟨d, hd, h⟩
    · rcases min_choice a.2.n m0 with h' | h'
      · exact .inr ⟨a, List.mem_cons_self, by rw [h, h']⟩
      · exact .inl (by rw [h, h'])
    · exact .inr ⟨d, List.mem_cons_of_mem _ hd, h⟩

/-- an output event consists of the raw samples `K` of the input event, all parameters from the same raw sample -/
def ConsistsOf (cosmo : Obj) (p : String × PEEvent) (o : String × EvData) (K : List ℕ) : Prop :=
  o.1 = p.1 ∧ o.2.n = K.length ∧ o.2.zprior = p.2.zprior ∧
    o.2.cols = peParams.map fun name => (name, K.map fun i => sampleValue cosmo p.2 name (p.2.row i))

theorem processed_spec {cosmo : Obj} {cat : List (String × PEEvent)} {mmax : ℝ} {choice : String → ℕ → ℕ → List ℕ}
    (hch : ValidChoice choice) {out : List (String × EvData)} (h : processed cosmo cat mmax choice = .ok out) :
    ∃ k ≤ 10000, (k = 10000 ∨ ∃ p ∈ cat, k = (survivors p.2 mmax).length) ∧
      List.Forall₂ (fun p o => ∃ K : List ℕ, ConsistsOf cosmo p o K ∧ K.length = k ∧ k ≤ (survivors p.2 mmax).length ∧ K.Nodup ∧
        ∀ i ∈ K, i ∈ survivors p.2 mmax) cat out := by
  unfold processed at h
  simp only [bind, Except.bind, pure, Except.pure] at h
  split at h; · cases h
  rename_i ds hds
  simp only [Except.ok.injEq] at h
  subst h
  have hF : List.Forall₂ (fun (p : String × PEEvent) (d : String × EvData) => d.1 = p.1 ∧ Proc cosmo p.2 mmax d.2) cat ds := by
    refine (mapE_ok hds).imp fun p d hd => ?_
    obtain ⟨x, hx, rfl⟩ := except_map_ok hd
    exact ⟨rfl, processEvent_proc hx⟩
  obtain ⟨hk0, hk⟩ := foldl_min_le ds 10000
  refine ⟨maxSamples ds, hk0, ?_, ?_⟩
  · rcases foldl_min_mem ds 10000 with h | ⟨d, hd, h⟩
    · exact .inl h
    · right
      obtain ⟨p, hp, hpd⟩ := forall2_mem_right hF hd
      exact ⟨p, hp, h.trans hpd.2.n⟩
  · rw [List.forall₂_map_right_iff]
    refine forall2_imp_mem hF fun p d hp hd hpd => ?_
    obtain ⟨hname, hP⟩ := hpd
    have hle : maxSamples ds ≤ d.2.n := hk d hd
    obtain ⟨c1, c2, c3⟩ := hch d.1 d.2.n (maxSamples ds) hle
    have c3' : ∀ i ∈ choice d.1 d.2.n (maxSamples ds), i < (survivors p.2 mmax).length := fun i hi => hP.n ▸ c3 i hi
    have hnd : (survivors p.2 mmax).Nodup := List.nodup_range.filter _
    refine ⟨(choice d.1 d.2.n (maxSamples ds)).map fun i => (survivors p.2 mmax).getD i 0, ⟨hname, ?_, hP.zprior, ?_⟩, ?_, ?_, ?_, ?_⟩
    · simp [c1]
    · simp only [hP.cols, List.map_map, Function.comp_def]
      refine List.map_congr_left fun name _ => ?_
      rw [gatherCol_map _ _ _ c3', List.map_map]; rfl
    · simp [c1]
    · rw [← hP.n]; exact hle
    · refine List.Nodup.map_on ?_ c2
      intro i hi j hj hij
      simp only [List.getD_eq_getElem?_getD, List.getElem?_eq_getElem (c3' i hi), List.getElem?_eq_getElem (c3' j hj),
        Option.getD_some] at hij
      exact (hnd.getElem_inj_iff).1 hij
    · intro i hi
      obtain ⟨j, hj, rfl⟩ := List.mem_map.1 hi
      simp only [List.getD_eq_getElem?_getD, List.getElem?_eq_getElem (c3' j hj), Option.getD_some]
      exact List.getElem_mem _

/-! ## C69 -/

/-- **C69.** Whatever positions are drawn: every event of the returned catalogue has the same number `k` of samples; they are
`k` distinct raw samples of that event, and in every parameter row entry `j` comes from the same raw sample. -/
theorem C69_joint {cosmo : Obj} {cat : List (String × PEEvent)} {mmax : ℝ} {choice : String → ℕ → ℕ → List ℕ}
    (hch : ValidChoice choice) {out : List (String × EvData)} (h : processed cosmo cat mmax choice = .ok out) :
    ∃ k ≤ 10000, List.Forall₂ (fun p o => ∃ K : List ℕ, K.length = k ∧ K.Nodup ∧ (∀ i ∈ K, i < p.2.rows.length) ∧ o.1 = p.1 ∧
      ∀ name ∈ ["mass_1", "mass_2", "mass_ratio", "redshift", "a_1", "a_2", "cos_tilt_1", "cos_tilt_2"],
        o.2.cols.get? name = some (K.map fun i => sampleValue cosmo p.2 name (p.2.row i))) cat out := by
  obtain ⟨k, hk, -, hF⟩ := processed_spec hch h
  refine ⟨k, hk, hF.imp ?_⟩
  rintro p o ⟨K, ⟨h1, -, -, h4⟩, h5, -, h7, h8⟩
  refine ⟨K, h5, h7, fun i hi => List.mem_range.1 (List.mem_filter.1 (h8 i hi)).1, h1, ?_⟩
  intro name hn
  rw [h4]
  simp only [List.mem_cons, List.not_mem_nil, or_false] at hn
  rcases hn with rfl | rfl | rfl | rfl | rfl | rfl | rfl | rfl <;> simp [peParams, PyDict.get?]

/-! ## C83 -/

/-- **C83, partial.** No retained sample of an event outside GWTC-1 has a primary mass above the requested maximum. -/
theorem C83_mass_cut_partial {cosmo : Obj} {cat : List (String × PEEvent)} {mmax : ℝ} {choice : String → ℕ → ℕ → List ℕ}
    (hch : ValidChoice choice) {out : List (String × EvData)} (h : processed cosmo cat mmax choice = .ok out) :
    List.Forall₂ (fun p o => p.2.catalog ≠ "GWTC-1" → ∃ c, o.2.cols.get? "mass_1" = some c ∧ ∀ m ∈ c, m ≤ mmax) cat out := by
  obtain ⟨k, hk, -, hF⟩ := processed_spec hch h
  refine hF.imp ?_
  rintro p o ⟨K, ⟨h1, -, -, h4⟩, -, -, h7, h8⟩ hc
  refine ⟨_, by rw [h4]; simp [peParams, PyDict.get?]; rfl, ?_⟩
  intro m hm
  obtain ⟨i, hi, rfl⟩ := List.mem_map.1 hm
  obtain ⟨hr, hs⟩ := List.mem_filter.1 (h8 i hi)
  simp only [sampleValue, if_neg hc]
  simp only [decide_eq_true_eq] at hs
  rcases hs with hs | hs | hs
  · exact absurd hs hc
  · refine hs _ ?_
    have hlt := List.mem_range.1 hr
    simp only [PEEvent.row, List.getD_eq_getElem?_getD, List.getElem?_eq_getElem hlt, Option.getD_some]
    exact List.getElem_mem _
  · exact hs.le

/-- **C83 is false of the code for GWTC-1 events.** With one GWTC-1 event (of at most 10000 samples) every sample is returned,
in particular those with a primary mass above the requested maximum. -/
theorem C83_gwtc1_fails {cosmo : Obj} {ev : String} {e : PEEvent} (hc : e.catalog = "GWTC-1") (hlen : e.rows.length ≤ 10000)
    {mmax : ℝ} {choice : String → ℕ → ℕ → List ℕ} (hch : ValidChoice choice) {out : List (String × EvData)}
    (h : processed cosmo [(ev, e)] mmax choice = .ok out) {i : ℕ} (hi : i < e.rows.length)
    (hm : mmax < sampleValue cosmo e "mass_1" (e.row i)) :
    ∃ d c m, out = [(ev, d)] ∧ d.cols.get? "mass_1" = some c ∧ m ∈ c ∧ mmax < m := by
  obtain ⟨k, hk, hor, hF⟩ := processed_spec hch h
  rcases hF with _ | ⟨⟨K, ⟨h1, -, -, h4⟩, h5, h6, h7, h8⟩, hF⟩
  rename_i o l
  rcases hF with _ | _
  have hs : (survivors e mmax).length = e.rows.length := by rw [survivors_gwtc1 hc]; simp
  have hk' : k = e.rows.length := by
    rcases hor with h | ⟨p, hp, h⟩
    · simp only [hs] at h6; omega
    · obtain rfl : p = (ev, e) := by simpa using hp
      rw [h]; exact hs
  have hKi : i ∈ K := by
    have hsub : K.toFinset ⊆ Finset.range e.rows.length := by
      intro j hj
      have := h8 j (List.mem_toFinset.1 hj)
      rw [survivors_gwtc1 hc] at this
      simpa using this
    have hcard : K.toFinset.card = (Finset.range e.rows.length).card := by
      rw [List.toFinset_card_of_nodup h7, h5, hk', Finset.card_range]
    have := Finset.eq_of_subset_of_card_le hsub hcard.ge
    rw [← List.mem_toFinset, this]; simpa using hi
  refine ⟨o.2, K.map fun i => sampleValue cosmo e "mass_1" (e.row i), _, ?_, by rw [h4]; simp [peParams, PyDict.get?],
    List.mem_map.2 ⟨i, hKi, rfl⟩, hm⟩
  rw [show ev = o.1 from h1.symm]

/-! ## C85 -/

/-- **C85 is false of the code.** If every sample of one event (outside GWTC-1) is above the requested maximum mass, no sample of
any event is returned. -/
theorem C85_emptied_fails {cosmo : Obj} {cat : List (String × PEEvent)} {mmax : ℝ} {choice : String → ℕ → ℕ → List ℕ}
    (hch : ValidChoice choice) {out : List (String × EvData)} (h : processed cosmo cat mmax choice = .ok out)
    {p : String × PEEvent} (hp : p ∈ cat) (hc : p.2.catalog ≠ "GWTC-1") (hm : ∀ r ∈ p.2.rows, mmax < r "mass_1_source") :
    ∀ o ∈ out, o.2.n = 0 ∧ ∀ c ∈ o.2.cols, c.2 = [] := by
  obtain ⟨k, hk, -, hF⟩ := processed_spec hch h
  have hs : survivors p.2 mmax = [] := by
    unfold survivors
    rw [List.filter_eq_nil_iff]
    intro i hi
    have hlt := List.mem_range.1 hi
    have hmem : p.2.row i ∈ p.2.rows := by
      simp only [PEEvent.row, List.getD_eq_getElem?_getD, List.getElem?_eq_getElem hlt, Option.getD_some]
      exact List.getElem_mem _
    simp only [decide_eq_true_eq]
    rintro (h | h | h)
    · exact hc h
    · exact absurd (h _ hmem) (not_le.2 (hm _ hmem))
    · exact absurd h (not_lt.2 (hm _ hmem).le)
  have hk0 : k = 0 := by
    obtain ⟨o, _, K, _, _, hle, _⟩ := forall2_mem_left hF hp
    rw [hs] at hle; simpa using hle
  intro o ho
  obtain ⟨p', _, K, ⟨_, h2, _, h4⟩, h5, _⟩ := forall2_mem_right hF ho
  have hK : K = [] := List.eq_nil_of_length_eq_zero (h5.trans hk0)
  refine ⟨by rw [h2, hK]; rfl, ?_⟩
  intro c hcm
  rw [h4] at hcm
  obtain ⟨name, _, rfl⟩ := List.mem_map.1 hcm
  simp [hK]

/-- **C69 (count).** The common number of samples is the largest one allowed: at most 10000 and at most what every event has
left after the mass cut; every event contributes that many of its remaining samples. -/
theorem C69_count {cosmo : Obj} {cat : List (String × PEEvent)} {mmax : ℝ} {choice : String → ℕ → ℕ → List ℕ}
    (hch : ValidChoice choice) {out : List (String × EvData)} (h : processed cosmo cat mmax choice = .ok out) :
    ∃ k, (k ≤ 10000 ∧ ∀ p ∈ cat, k ≤ (survivors p.2 mmax).length) ∧
      (∀ k', k' ≤ 10000 → (∀ p ∈ cat, k' ≤ (survivors p.2 mmax).length) → k' ≤ k) ∧ ∀ o ∈ out, o.2.n = k := by
  obtain ⟨k, hk, hor, hF⟩ := processed_spec hch h
  refine ⟨k, ⟨hk, fun p hp => ?_⟩, fun k' h1 h2 => ?_, fun o ho => ?_⟩
  · obtain ⟨o, _, K, _, _, h3, _⟩ := forall2_mem_left hF hp
    exact h3
  · rcases hor with rfl | ⟨p, hp, rfl⟩
    · exact h1
    · exact h2 p hp
  · obtain ⟨p, _, K, ⟨_, h3, _⟩, h4, _⟩ := forall2_mem_right hF ho
    exact h3.trans h4

/-- **C85, partial.** When every event keeps at least one sample, so does every event of the result. -/
theorem C85_nonempty_partial {cosmo : Obj} {cat : List (String × PEEvent)} {mmax : ℝ} {choice : String → ℕ → ℕ → List ℕ}
    (hch : ValidChoice choice) {out : List (String × EvData)} (h : processed cosmo cat mmax choice = .ok out)
    (hs : ∀ p ∈ cat, ∃ i < p.2.rows.length, survives p.2 mmax (p.2.row i)) : ∀ o ∈ out, 1 ≤ o.2.n := by
  obtain ⟨k, _, h2, h3⟩ := C69_count hch h
  intro o ho
  rw [h3 o ho]
  refine h2 1 (by norm_num) fun p hp => ?_
  obtain ⟨i, hi, hsv⟩ := hs p hp
  exact List.length_pos_of_mem (List.mem_filter.2 ⟨List.mem_range.2 hi, by simpa using hsv⟩)

/-- A concrete event of a modern catalogue with two samples, of primary masses 30 and 70. -/
def demoEvent : PEEvent :=
  ⟨"GWTC-3", "euclidean", ["mass_1_source", "mass_2_source", "mass_ratio", "redshift", "a_1", "a_2", "cos_tilt_1", "cos_tilt_2"],
    [fun k => if k = "mass_1_source" then 30 else 1 / 2, fun k => if k = "mass_1_source" then 70 else 1 / 3]⟩

theorem demo_choice : ValidChoice fun _ _ k => List.range k :=
  fun _ n k h => ⟨List.length_range, List.nodup_range, fun i hi => (List.mem_range.1 hi).trans_le h⟩

theorem demo_processed (cosmo : Obj) (mmax : ℝ) :
    ∃ out, processed cosmo [("GW1", demoEvent), ("GW2", demoEvent)] mmax (fun _ _ k => List.range k) = .ok out := by
  simp [processed, mapE, processEvent, demoEvent, modern, PEEvent.col, paramMapping, bind, Except.bind, pure, Except.pure, Except.map]

-- the mass cut separates the two samples
example : survives demoEvent 50 (demoEvent.row 0) ∧ ¬ survives demoEvent 50 (demoEvent.row 1) := by
  simp [survives, demoEvent, PEEvent.row]; norm_num

-- both samples above the cut: the hypothesis of C85_emptied_fails
example : ∀ r ∈ demoEvent.rows, (20 : ℝ) < r "mass_1_source" := by
  intro r hr; simp [demoEvent] at hr; rcases hr with rfl | rfl <;> norm_num

/-- A concrete GWTC-1 event. -/
def demoGwtc1 : PEEvent :=
  ⟨"GWTC-1", "euclidean", ["luminosity_distance_Mpc", "m1_detector_frame_Msun", "m2_detector_frame_Msun", "spin1", "spin2", "costilt1", "costilt2"],
    [fun k => if k = "m1_detector_frame_Msun" then 1000 else if k = "luminosity_distance_Mpc" then 0 else 1 / 2]⟩

example : ∃ s0 out, init planck2015LVK 10 0.001 = .ok s0 ∧
    processed s0 [("GW1", demoGwtc1)] 100 (fun _ _ k => List.range k) = .ok out := by
  obtain ⟨s0, hs⟩ := (C52_constructor planck2015LVK 10 0.001).1 planck_flat.2.flat
  obtain ⟨n, dz, h⟩ := run_state (by norm_num) (by norm_num) hs [] (by simp)
  have h' : IsTab s0 planck2015LVK n dz := h
  have hD : s0.DL2z [0] = (s0, .ok ([0].map fun x => interp n s0.DL s0.tab.z x)) := by
    refine DL2z_inside h' planck_flat.2 (by simp) ?_
    intro x hx
    simp only [List.mem_singleton] at hx
    subst hx
    have hpos := h'.pos
    have : s0.DL 0 ≤ s0.DL (n - 1) := (h'.incDL planck_flat.2).le (Nat.zero_le _) (by omega)
    have h0 : 0 ≤ s0.DL 0 := by
      simp [Obj.DL, h'.z, h'.Dc 0 hpos, trapD]
    linarith
  refine ⟨s0, ?_⟩
  simp [processed, mapE, processEvent, demoGwtc1, gwtc1, PEEvent.col, bind, Except.bind, pure, Except.pure, Except.map, hs, hD]

end GW
end
