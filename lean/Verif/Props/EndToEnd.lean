import Verif.Model.EndToEnd
import Verif.Props.LoadPosterior
import Verif.Props.Likelihood

/-!
# C122: from the files of the events and of the injections to the value of the likelihood
-/

noncomputable section
open Classical
namespace GW
open _root_.F
open Cosmo

variable {iso : ℝ → ℝ → Except PyErr F} {joint : ℝ → ℝ → ℝ → Except PyErr F}

/-! ### specification -/

/-- `p` reads only the columns `ps`, and where these are real numbers it is the density `dens` of them -/
def ReadsOnly (p : (String → F) → F) (ps : List String) (dens : (String → ℝ) → ℝ) : Prop :=
  ∀ d x, (∀ k ∈ ps, d k = fin (x k)) → p d = fin (dens x)

/-- the parameters of an injection from the columns of its file: source masses, redshift and Cartesian spins -/
def injPhys (m1 m2 z : ℕ → ℝ) (s1 s2 : ℕ → ℝ × ℝ × ℝ) (i : ℕ) (k : String) : ℝ :=
  if k = "mass_1" then m1 i else if k = "mass_2" then m2 i else if k = "mass_ratio" then m2 i / m1 i else if k = "redshift" then z i
  else if k = "a_1" then √(normSq (s1 i)) else if k = "a_2" then √(normSq (s2 i))
  else if k = "cos_tilt_1" then (s1 i).2.2 / √(normSq (s1 i)) else if k = "cos_tilt_2" then (s2 i).2.2 / √(normSq (s2 i)) else 0

/-- the density the injections were drawn from, in the requested parameters: the file's density `π` per injection of the file's own
coordinates, times the Jacobians to the mass ratio and to the spin magnitude and tilt of both bodies -/
def injDrawn (ps : List String) (π m1 : ℕ → ℝ) (s1 s2 : ℕ → ℝ × ℝ × ℝ) (i : ℕ) : ℝ :=
  π i * (if "mass_ratio" ∈ ps then m1 i else 1) *
    (if "a_1" ∈ ps then (2 * Real.pi * normSq (s1 i)) * (2 * Real.pi * normSq (s2 i)) else 1)

/-- the events that are not ignored -/
def usedEvents {α : Type} (ig : Option (List String)) (l : List (String × α)) : List (String × α) :=
  match ig with | none => l | some ig => l.filter fun o => decide (o.1 ∉ ig)

/-- The inputs of the event side: a flat cosmology, the object made from it and whatever it was asked before; the raw catalogue, the mass cut
and the random choice of samples; every event can be processed and declares one of the two redshift priors; redshifts and primary masses of the
samples that survive the cut are positive. -/
structure EventsIn where
  par : Par
  flat : Flat par
  max_z : ℝ
  dz0 : ℝ
  hm : 0 < max_z
  hd0 : 0 < dz0
  s0 : Obj
  hs : init par max_z dz0 = .ok s0
  hist : List Op
  hh : ∀ op ∈ hist, op.Ok
  cosmo : Obj
  cat : List (String × PEEvent)
  mmax : ℝ
  choice : String → ℕ → ℕ → List ℕ
  hch : ValidChoice choice
  d : List (String × EvData)
  hd : processed cosmo cat mmax choice = .ok d
  hprior : ∀ e ∈ cat, e.2.zprior = "euclidean" ∨ e.2.zprior = "comoving"
  hpos : ∀ e ∈ cat, ∀ i ∈ survivors e.2 mmax, 0 < rawValue cosmo e.2 "redshift" i ∧ 0 < rawValue cosmo e.2 "mass_1" i

/-- the posterior data set of the catalogue -/
def EventsIn.load (I : EventsIn) (iso : ℝ → ℝ → Except PyErr F) (joint : ℝ → ℝ → ℝ → Except PyErr F) (ps : List String) : Except PyErr (List PERows) :=
  loadPosterior iso joint I.cosmo (I.s0.run I.hist) I.choice I.cat I.mmax ps

/-- What the value computed from the data `L` is, for every population density `dens` of the parameters `ps`: `cat` are the events used, `Nobs`
is the number the selection term is raised to; `k` (as many as the event with the fewest has, at most 10000) distinct
samples `σ e j` of every event that survive the mass cut; `prior e j` the
sampling density of the parameters at the sample; `K` the injections found, `y i` the parameters of injection `i`, `ρ i` the density it was
drawn from, `n` the number generated.  The value is

  `∑ₑ log ((1/k) ∑ⱼ dens(θₑⱼ) / prior(θₑⱼ)) - Nobs log ((1/n) ∑ᵢ dens(θᵢ) / ρᵢ)`

(plus the correction for the uncertainty of the selection term, if asked for), provided the estimates are not zero and pass the cuts that are
switched on. -/
def IsLikelihood (I : EventsIn) (ps : List String) (cat : List (String × PEEvent)) (Nobs : ℕ) (K : List ℕ) (y : ℕ → String → ℝ) (ρ : ℕ → ℝ) (n : ℕ)
    (L : Loaded) : Prop :=
  ∃ k ≤ 10000, (k = 10000 ∨ ∃ e ∈ I.cat, k = (survivors e.2 I.mmax).length) ∧ ∃ (zmax : ℝ) (pe pc : ℕ → ℝ) (σ : Fin cat.length → Fin k → ℕ), 1.9 ≤ zmax ∧
    ("redshift" ∈ ps → ZDensities I.par (I.s0.run I.hist) zmax pe pc) ∧ (∀ e, Function.Injective (σ e)) ∧
    (∀ e j, σ e j ∈ survivors (cat.get e).2 I.mmax) ∧
    let θ := fun (e : Fin cat.length) (j : Fin k) (name : String) => rawValue I.cosmo (cat.get e).2 name (σ e j)
    let prior := fun e j => peDensity ps (interp 1000 (zNode zmax) (if (cat.get e).2.zprior = "euclidean" then pe else pc))
          (θ e j "redshift") (θ e j "mass_1")
    (∀ e j, 0 < prior e j) ∧
    ∀ (P : (String → F) → F) (dens : (String → ℝ) → ℝ), ReadsOnly P ps dens → (∀ x, 0 ≤ dens x) →
    let w := fun e j => dens (θ e j) / prior e j
    let v := fun i : Fin K.length => dens (y (K.get i)) / ρ (K.get i)
    ∀ (fl : Flags) (hv : Option F) (unscaled : F), fl.ok → (fl.reconstruct_rate = true → hv ≠ none) →
    (∀ e, ∃ j, 0 < dens (θ e j)) → (∃ i ∈ K, 0 < dens (y i)) →
    (fl.min_neff_cut = true → (∀ e, (Nobs : ℝ) < kish (w e)) ∧ 4 * (Nobs : ℝ) * relVar v n ≤ 1) →
    (fl.max_variance_cut = true → (Nobs : ℝ) ^ 2 * (relVar v n - 1 / n) + ∑ e, (1 / kish (w e) - 1 / k) ≤ 1) →
    factors (analyse fl P L hv unscaled).1 =
      [fin (∑ e, Real.log ((∑ j, dens (θ e j) / prior e j) / k) - Nobs * Real.log ((K.map fun i => dens (y i) / ρ i).sum / n) +
        (if fl.marginalize_selection then Nobs * (3 + Nobs) / 2 * relVar v n else 0))]

/-! ### the weights handed over -/

theorem injValue_phys {m1 m2 z : ℕ → F} {s1 s2 : ℕ → F × F × F} {rm1 rm2 rz : ℕ → ℝ} {t1 t2 : ℕ → ℝ × ℝ × ℝ} {ps : List String}
    (hav : Available ps) {i : ℕ}
    (e1 : m1 i = fin (rm1 i)) (e2 : m2 i = fin (rm2 i)) (e3 : z i = fin (rz i))
    (e4 : s1 i = (fin (t1 i).1, fin (t1 i).2.1, fin (t1 i).2.2)) (e5 : s2 i = (fin (t2 i).1, fin (t2 i).2.1, fin (t2 i).2.2))
    (hm : rm1 i ≠ 0) (hs : "a_1" ∈ ps → normSq (t1 i) ≠ 0 ∧ normSq (t2 i) ≠ 0) {k : String} (hk : k ∈ ps) :
    injValue m1 m2 z s1 s2 k i = fin (injPhys rm1 rm2 rz t1 t2 i k) := by
  have hn : ∀ v : ℝ × ℝ × ℝ, 0 ≤ normSq v := fun v => by unfold normSq; positivity
  rcases hav k hk with h | ⟨ha, h⟩
  · simp only [List.mem_cons, List.not_mem_nil, or_false] at h
    rcases h with rfl | rfl | rfl | rfl <;> simp [injValue, injPhys, e1, e2, e3, F.div_fin hm]
  · obtain ⟨h1, h2⟩ := hs ha
    have q1 : √(normSq (t1 i)) ≠ 0 := fun h => h1 ((Real.sqrt_eq_zero (hn _)).1 h)
    have q2 : √(normSq (t2 i)) ≠ 0 := fun h => h2 ((Real.sqrt_eq_zero (hn _)).1 h)
    simp only [List.mem_cons, List.not_mem_nil, or_false] at h
    rcases h with rfl | rfl | rfl | rfl <;> simp [injValue, injPhys, e4, e5, vecLen_real, F.div_fin q1, F.div_fin q2]

theorem analyse_eq {fl : Flags} {p : (String → F) → F} {ps : List String} {dens : (String → ℝ) → ℝ} (hp : ReadsOnly p ps dens)
    {L : Loaded} {E N M n : ℕ} (hE : 0 < E) {x : Fin E → Fin N → String → ℝ} {π : Fin E → Fin N → ℝ} {y : Fin M → String → ℝ} {ρ : Fin M → ℝ}
    (h1 : ∀ k ∈ ps, L.pedict.get? k = some (List.ofFn fun e => List.ofFn fun j => fin (x e j k)))
    (h2 : L.pedict.get? "prior" = some (List.ofFn fun e => List.ofFn fun j => fin (π e j)))
    (h3 : ∀ k ∈ ps, L.injdict.get? k = some (List.ofFn fun i => fin (y i k)))
    (h4 : L.injdict.get? "prior" = some (List.ofFn fun i => fin (ρ i))) (h5 : L.total_inj = fin n)
    (hπ : ∀ e j, π e j ≠ 0) (hρ : ∀ i, ρ i ≠ 0) (hv : Option F) (unscaled : F) :
    analyse fl p L hv unscaled = hierarchical_likelihood fl (.single fun e j => encode fl.log (dens (x e j) / π e j))
      (fun i => encode fl.log (dens (y i) / ρ i)) n L.nObs L.obs_time hv unscaled := by
  have s1 : L.events = E := by simp [Loaded.events, h2]
  have s2 : L.samples = N := by
    have : (List.ofFn fun e => List.ofFn fun j => fin (π e j)).getD 0 [] = List.ofFn fun j => fin (π ⟨0, hE⟩ j) := by
      rw [List.getD_eq_getElem?_getD, List.getElem?_ofFn, dif_pos hE, Option.getD_some]
    simp only [Loaded.samples, h2, Option.getD_some]
    rw [this]; simp
  have s3 : L.found = M := by simp [Loaded.found, h4]
  have hA : analyse fl p L hv unscaled = analyseAt E N M fl p L hv unscaled := by unfold analyse; rw [s1, s2, s3]
  have pe : ∀ (k : String) (g : Fin E → Fin N → ℝ), L.pedict.get? k = some (List.ofFn fun e => List.ofFn fun j => fin (g e j)) →
      ∀ (e : Fin E) (j : Fin N), L.peEntry e j k = fin (g e j) := by
    intro k g hg e j
    unfold Loaded.peEntry
    rw [hg, Option.getD_some, List.getD_eq_getElem?_getD (l := List.ofFn _), List.getElem?_ofFn, dif_pos e.2, Option.getD_some,
      List.getD_eq_getElem?_getD, List.getElem?_ofFn, dif_pos j.2, Option.getD_some]
  have ie : ∀ (k : String) (g : Fin M → ℝ), L.injdict.get? k = some (List.ofFn fun i => fin (g i)) →
      ∀ i : Fin M, L.injEntry i k = fin (g i) := by
    intro k g hg i
    unfold Loaded.injEntry
    rw [hg, Option.getD_some, List.getD_eq_getElem?_getD, List.getElem?_ofFn, dif_pos i.2, Option.getD_some]
  rw [hA]
  unfold analyseAt
  have w1 : (fun (e : Fin E) (j : Fin N) => weightArg fl.log (weightOf p (L.peEntry e j))) = fun e j => encode fl.log (dens (x e j) / π e j) := by
    funext e j
    unfold weightOf
    rw [hp _ (x e j) fun k hk => pe k _ (h1 k hk) e j, pe _ _ h2 e j, F.div_fin (hπ e j)]
    rfl
  have w2 : (fun i : Fin M => weightArg fl.log (weightOf p (L.injEntry i))) = fun i => encode fl.log (dens (y i) / ρ i) := by
    funext i
    unfold weightOf
    rw [hp _ (y i) fun k hk => ie k _ (h3 k hk) i, ie _ _ h4 i, F.div_fin (hρ i)]
    rfl
  rw [w1, w2, h5, toReal_fin, Nat.floor_natCast]

theorem forall2_used {α β : Type} {R : String × α → String × β → Prop} (hR : ∀ a b, R a b → b.1 = a.1) (ig : Option (List String))
    {l : List (String × α)} {l' : List (String × β)} (h : List.Forall₂ R l l') : List.Forall₂ R (usedEvents ig l) (usedEvents ig l') := by
  cases ig with
  | none => exact h
  | some ig =>
    unfold usedEvents
    induction h with
    | nil => exact .nil
    | @cons a b _ _ hab _ ih =>
      have := hR a b hab
      by_cases hm : a.1 ∈ ig
      · simpa [List.filter_cons, this, hm] using ih
      · simpa [List.filter_cons, this, hm] using And.intro hab ih

theorem names_get? {ks : List String} {g : String → List (List F)} {k : String} (h : k ∈ ks) : PyDict.get? (ks.map fun k => (k, g k)) k = some (g k) := by
  induction ks with
  | nil => cases h
  | cons a ks ih =>
    by_cases ha : a = k
    · simp [PyDict.get?, ha]
    · have : k ∈ ks := by
        rcases List.mem_cons.1 h with h | h
        · exact absurd h.symm ha
        · exact h
      simpa [PyDict.get?, ha] using ih this

theorem list_ofFn_get {α : Type} (K : List ℕ) (f : ℕ → α) {k : ℕ} (hk : K.length = k) :
    K.map f = List.ofFn fun j : Fin k => f (K.get (j.cast hk.symm)) := by
  subst hk
  apply List.ext_getElem
  · simp
  · intro i h1 h2
    simp

/-- reading back what was saved, with some events left out -/
theorem read_back {fs fs' : PyDict SavedData} {name : String} {out : List PERows} {inj : InjArray} (hsave : saveIdata fs name out inj = .ok fs')
    (ig : Option (List String)) (hne : out ≠ []) {ps : List String} (hk : ∀ o ∈ out, ∀ k, k ∈ PyDict.keys o.2 ↔ k ∈ ps ∨ k = "prior") :
    ∃ L, loadIdata fs' name ig = .ok L ∧ L.injdict = inj.rows ∧ L.total_inj = inj.total_generated ∧ L.obs_time = inj.analysis_time ∧
      L.nObs = out.length ∧ ∀ k, (k ∈ ps ∨ k = "prior") → L.pedict.get? k = some ((usedEvents ig out).map fun o => (PyDict.get? o.2 k).getD []) := by
  have h0 : fs'.get? name = some ⟨out, inj⟩ := by
    unfold saveIdata at hsave
    split at hsave
    · cases hsave
    · rw [← Except.ok.inj hsave, PyDict.get?_set_self]
  obtain ⟨o, l, rfl⟩ := List.exists_cons_of_ne_nil hne
  refine ⟨_, by
    unfold loadIdata
    rw [h0]
    rfl, rfl, rfl, rfl, rfl, fun k hk' => ?_⟩
  have := names_get? (g := fun k => (usedEvents ig (o :: l)).map fun o => (PyDict.get? o.2 k).getD [])
    ((hk o (List.mem_cons_self ..) k).2 hk')
  cases ig <;> exact this

theorem zNode_facts {top : ℝ} (h : 1.9 ≤ top) : IncOn 1000 (zNode top) ∧ zNode top 0 = 0 := by
  obtain ⟨g1, g2, -, -⟩ := zGrid_facts h
  rw [zGrid_eq] at g1 g2
  exact ⟨g1, g2⟩

theorem peDensity_pos {p : Par} {s : Obj} {ps : List String} {zmax : ℝ} (hz : 1.9 ≤ zmax) {pe pc : ℕ → ℝ}
    (h : "redshift" ∈ ps → ZDensities p s zmax pe pc) (b : Prop) [Decidable b] {z m1 : ℝ} (hz0 : 0 < z) (hm : 0 < m1) :
    0 < peDensity ps (interp 1000 (zNode zmax) (if b then pe else pc)) z m1 := by
  obtain ⟨g1, g2⟩ := zNode_facts hz
  have h1 : 0 < if "redshift" ∈ ps then interp 1000 (zNode zmax) (if b then pe else pc) z else 1 := by
    split
    · rename_i hr
      obtain ⟨-, -, -, -, -, -, -, -, hq, -, -⟩ := h hr
      refine interp_pos_of (by norm_num) g1 g2 ?_ ?_ hz0
      · split
        · exact (hq 0 (by norm_num)).1
        · exact (hq 0 (by norm_num)).2.1
      · intro i hi hi0
        split
        · exact ((hq i hi).2.2 hi0).1
        · exact ((hq i hi).2.2 hi0).2
    · norm_num
  have h2 : (0 : ℝ) < if "mass_1" ∈ ps then (1 + z) ^ 2 else 1 := by split <;> positivity
  have h3 : 0 < if "mass_ratio" ∈ ps then m1 else 1 := by split <;> positivity
  have h4 : (0 : ℝ) < if "a_1" ∈ ps then 1 / 4 else 1 := by split <;> positivity
  unfold peDensity
  positivity

theorem mem_usedEvents {α : Type} {ig : Option (List String)} {l : List (String × α)} {e : String × α} (h : e ∈ usedEvents ig l) : e ∈ l := by
  cases ig with
  | none => exact h
  | some ig => exact (List.mem_filter.1 h).1

/-- the analysis with either kind of injection data set and any events left out -/
theorem end_to_end (I : EventsIn) {ps : List String} (hps : ∀ k ∈ ps, k ∈ peParams)
    {inj : InjArray} {K : List ℕ} {y : ℕ → String → ℝ} {ρ : ℕ → ℝ} {n : ℕ}
    (hinj : Requested inj.rows ps K (fun k i => fin (y i k)) fun i => fin (ρ i)) (hρ : ∀ i ∈ K, 0 < ρ i)
    (htot : inj.total_generated = fin n) (hKn : K.length ≤ n)
    (fs : PyDict SavedData) {name : String} (hname : ".h5".toList <:+: name.toList)
    (ig : Option (List String)) (hne : usedEvents ig I.cat ≠ []) :
    ∃ out fs' L, I.load iso joint ps = .ok out ∧ saveIdata fs name out inj = .ok fs' ∧ loadIdata fs' name ig = .ok L ∧
      L.obs_time = inj.analysis_time ∧ IsLikelihood I ps (usedEvents ig I.cat) I.cat.length K y ρ n L := by
  obtain ⟨p, hf, max_z, dz0, hm, hd0, s0, hs, hist, hh, cosmo, cat, mmax, choice, hch, d, hd, hp, hpos⟩ := I
  simp only [IsLikelihood, EventsIn.load] at *
  have hcat : cat ≠ [] := by
    rintro rfl
    cases ig <;> exact hne rfl
  obtain ⟨k, hk, hk', zmax, pe, pc, out, g1, g2, g3, g4⟩ := C104_posterior (iso := iso) (joint := joint) hf hm hd0 hs hist hh hps hch hd hcat hp
  have hone : out ≠ [] := by
    rintro rfl
    cases g4
    exact hcat rfl
  have hlen : cat.length = out.length := g4.length_eq
  obtain ⟨fs', hsave⟩ : ∃ fs', saveIdata fs name out inj = .ok fs' := by
    unfold saveIdata strIn
    rw [if_neg (by simpa using hname)]
    exact ⟨_, rfl⟩
  obtain ⟨L, hL, r1, r2, r3, r4, r5⟩ := read_back hsave ig hone (ps := ps) (by
    intro o ho
    obtain ⟨e, -, -, K, -, -, -, -, hR⟩ := forall2_mem_right g4 ho
    exact hR.names)
  refine ⟨out, fs', L, g3, hsave, hL, r3, k, hk, hk', zmax, pe, pc, ?_⟩
  have hU := forall2_used (fun a b h => h.1) ig g4
  obtain ⟨hl, hget⟩ := List.forall₂_iff_get.1 hU
  have hget' : ∀ e : Fin (usedEvents ig cat).length, ∃ K : List ℕ, K.length = k ∧ K.Nodup ∧ (∀ i ∈ K, i ∈ survivors ((usedEvents ig cat).get e).2 mmax) ∧
        (∀ i ∈ K, rawValue cosmo ((usedEvents ig cat).get e).2 "redshift" i ≤ zmax) ∧
        Requested ((usedEvents ig out).get (e.cast hl)).2 ps K (fun name i => fin (rawValue cosmo ((usedEvents ig cat).get e).2 name i)) (fun i => fin (
          peDensity ps (interp 1000 (zNode zmax) (if ((usedEvents ig cat).get e).2.zprior = "euclidean" then pe else pc))
            (rawValue cosmo ((usedEvents ig cat).get e).2 "redshift" i) (rawValue cosmo ((usedEvents ig cat).get e).2 "mass_1" i))) :=
    fun e => (hget e.1 e.2 (hl ▸ e.2)).2
  choose Ke q1 q2 q3 q4 q5 using hget'
  refine ⟨fun e j => (Ke e).get (j.cast (q1 e).symm), g1, g2, ?_, ?_, ?_⟩
  · intro e a b hab
    have := (List.nodup_iff_injective_get.1 (q2 e)) hab
    simpa using this
  · intro e j
    exact q3 e _ (List.get_mem _ _)
  have hpr : ∀ (e : Fin (usedEvents ig cat).length) (j : Fin k), 0 < peDensity ps (interp 1000 (zNode zmax) (if ((usedEvents ig cat).get e).2.zprior = "euclidean" then pe else pc))
            (rawValue cosmo ((usedEvents ig cat).get e).2 "redshift" ((Ke e).get (j.cast (q1 e).symm)))
            (rawValue cosmo ((usedEvents ig cat).get e).2 "mass_1" ((Ke e).get (j.cast (q1 e).symm))) := by
    intro e j
    obtain ⟨h1, h2⟩ := hpos _ (mem_usedEvents (List.get_mem _ e)) _ (q3 e _ (List.get_mem _ (j.cast (q1 e).symm)))
    exact peDensity_pos g1 g2 _ h1 h2
  refine ⟨hpr, ?_⟩
  intro P dens hP hdens fl hv unscaled hfl hhv hwp hvp hneff hvar
  have col : ∀ (c : String) (hc : c ∈ ps ∨ c = "prior") (g : Fin (usedEvents ig cat).length → ℕ → ℝ),
      (∀ e, PyDict.get? ((usedEvents ig out).get (e.cast hl)).2 c = some ((Ke e).map fun i => fin (g e i))) →
      L.pedict.get? c = some (List.ofFn fun e => List.ofFn fun j : Fin k => fin (g e ((Ke e).get (j.cast (q1 e).symm)))) := by
    intro c hc g hg
    rw [r5 c hc]
    congr 1
    apply List.ext_getElem
    · simp [hl]
    · intro i h1 h2
      have hi : i < (usedEvents ig cat).length := by simpa using h2
      have := hg ⟨i, hi⟩
      simp only [List.getElem_map, List.getElem_ofFn]
      rw [← list_ofFn_get (Ke ⟨i, hi⟩) (fun j => fin (g ⟨i, hi⟩ j)) (q1 ⟨i, hi⟩)]
      simp only [Fin.cast_mk, List.get_eq_getElem] at this
      rw [this, Option.getD_some]
  have hEpos : 0 < (usedEvents ig cat).length := List.length_pos_iff.2 hne
  have hA := analyse_eq (fl := fl) hP (L := L) (n := n) hEpos
    (x := fun e j c => rawValue cosmo ((usedEvents ig cat).get e).2 c ((Ke e).get (j.cast (q1 e).symm))) (π := fun e j => peDensity ps (interp 1000 (zNode zmax) (if ((usedEvents ig cat).get e).2.zprior = "euclidean" then pe else pc))
            (rawValue cosmo ((usedEvents ig cat).get e).2 "redshift" ((Ke e).get (j.cast (q1 e).symm)))
            (rawValue cosmo ((usedEvents ig cat).get e).2 "mass_1" ((Ke e).get (j.cast (q1 e).symm))))
    (y := fun i : Fin K.length => y (K.get i)) (ρ := fun i => ρ (K.get i))
    (fun c hc => col c (.inl hc) (fun e i => rawValue cosmo ((usedEvents ig cat).get e).2 c i) fun e => (q5 e).value c hc)
    (col "prior" (.inr rfl) (fun e i => peDensity ps (interp 1000 (zNode zmax) (if ((usedEvents ig cat).get e).2.zprior = "euclidean" then pe else pc))
            (rawValue cosmo ((usedEvents ig cat).get e).2 "redshift" i) (rawValue cosmo ((usedEvents ig cat).get e).2 "mass_1" i)) fun e => (q5 e).prior_row)
    (fun c hc => by rw [r1, hinj.value c hc, list_ofFn_get K _ rfl]; rfl)
    (by rw [r1, hinj.prior_row, list_ofFn_get K _ rfl]; rfl)
    (r2.trans htot) (fun e j => (hpr e j).ne') (fun i => (hρ _ (List.get_mem _ _)).ne') hv unscaled
  rw [hA, r4, ← hlen]
  have hsum : (K.map fun i => dens (y i) / ρ i).sum = ∑ i : Fin K.length, dens (y (K.get i)) / ρ (K.get i) := by
    rw [list_ofFn_get K _ rfl, List.sum_ofFn]
    rfl
  rw [hsum]
  refine C47_value fl _ _ n cat.length _ hv unscaled none hfl hhv hEpos (List.length_pos_iff.2 hcat)
    (fun e j => div_nonneg (hdens _) (hpr e j).le) (fun e => ?_) (fun i => div_nonneg (hdens _) (hρ _ (List.get_mem _ _)).le) ?_ hKn hneff hvar
  · obtain ⟨j, hj⟩ := hwp e
    exact ⟨j, div_pos hj (hpr e j)⟩
  · obtain ⟨i, hi, hj⟩ := hvp
    obtain ⟨a, rfl⟩ := List.get_of_mem hi
    exact ⟨a, div_pos hj (hρ _ hi)⟩

theorem Requested.congr {rows : PyDict (List F)} {ps : List String} {K : List ℕ} {val val' : String → ℕ → F} {pr pr' : ℕ → F}
    (h : Requested rows ps K val pr) (h1 : ∀ k ∈ ps, ∀ i ∈ K, val k i = val' k i) (h2 : ∀ i ∈ K, pr i = pr' i) : Requested rows ps K val' pr' :=
  ⟨h.names, h.once, fun k hk => by rw [h.value k hk, List.map_congr_left (h1 k hk)], by rw [h.prior_row, List.map_congr_left h2]⟩

theorem available_pe {ps : List String} (hav : Available ps) : ∀ k ∈ ps, k ∈ peParams := by
  intro k hk
  rcases hav k hk with h | ⟨-, h⟩ <;>
    (simp only [List.mem_cons, List.not_mem_nil, or_false] at h; rcases h with rfl | rfl | rfl | rfl <;> decide)

theorem injDrawn_pos {ps : List String} {π m1 : ℕ → ℝ} {s1 s2 : ℕ → ℝ × ℝ × ℝ} {i : ℕ} (hπ : 0 < π i) (hm : 0 < m1 i)
    (hs : "a_1" ∈ ps → normSq (s1 i) ≠ 0 ∧ normSq (s2 i) ≠ 0) : 0 < injDrawn ps π m1 s1 s2 i := by
  have hn : ∀ v : ℝ × ℝ × ℝ, 0 ≤ normSq v := fun v => by unfold normSq; positivity
  have h1 : 0 < if "mass_ratio" ∈ ps then m1 i else 1 := by split <;> positivity
  have h2 : 0 < if "a_1" ∈ ps then (2 * Real.pi * normSq (s1 i)) * (2 * Real.pi * normSq (s2 i)) else 1 := by
    split
    · rename_i h
      have h3 := (hn (s1 i)).lt_of_ne' (hs h).1
      have h4 := (hn (s2 i)).lt_of_ne' (hs h).2
      have := Real.pi_pos
      positivity
    · norm_num
  unfold injDrawn
  positivity

theorem kept_length (n : ℕ) (P : ℕ → Prop) : (kept n P).length ≤ n := by
  unfold kept
  exact (List.length_filter_le _ _).trans_eq List.length_range

/-- the data set of an O4a file whose columns are real numbers, in physical terms -/
theorem o4a_data {f : InjFile} (A : O4aFile f) {ps : List String} (hav : Available ps) {ifar snr : ℝ} (hi : ifar ≠ 0) (o3 : Bool)
    (cuts : Option (List (String × ℝ))) {lnp w m1 m2 z : ℕ → ℝ} {s1 s2 : ℕ → ℝ × ℝ × ℝ}
    (hw : ∀ i, 0 < w i) (hm : ∀ i, 0 < m1 i) (hs : "a_1" ∈ ps → ∀ i, normSq (s1 i) ≠ 0 ∧ normSq (s2 i) ≠ 0)
    (e1 : ∀ i, A.C.lnp i = fin (lnp i)) (e2 : ∀ i, A.C.w i = fin (w i)) (e3 : ∀ i, A.C.m1 i = fin (m1 i))
    (e6 : ∀ i, A.C.m2 i = fin (m2 i)) (e7 : ∀ i, A.C.z i = fin (z i))
    (e4 : ∀ i, A.C.s1 i = (fin (s1 i).1, fin (s1 i).2.1, fin (s1 i).2.2))
    (e5 : ∀ i, A.C.s2 i = (fin (s2 i).1, fin (s2 i).2.1, fin (s2 i).2.2)) :
    ∃ r, loadInjections iso joint f ps true o3 ifar snr cuts = .ok r ∧ r.total_generated = A.total ∧ r.analysis_time = A.time / fin 31557600 ∧
      Requested r.rows ps (kept A.n (passesO4a A.cols A.C.snr ifar snr)) (fun k i => fin (injPhys m1 m2 z s1 s2 i k))
        fun i => fin (injDrawn ps (fun i => Real.exp (lnp i) / w i) m1 s1 s2 i) := by
  obtain ⟨r, h1, h2, h3, h4⟩ := C103_o4a_partial (iso := iso) (joint := joint) A hav hi o3 cuts (snr := snr) (fun i => (hw i).ne') e1 e2 e3 e4 e5
  exact ⟨r, h1, h2, h3, h4.congr (fun k hk i _ => injValue_phys hav (e3 i) (e6 i) (e7 i) (e4 i) (e5 i) (hm i).ne' (fun h => hs h i) hk) fun i _ => rfl⟩

/-- **C122 (O4a injections).**  From the raw catalogue and an O4a injection file to the likelihood: both data sets load, are saved and read back,
and for every population density the value the analysis contributes is the hierarchical likelihood of the catalogue: each event contributes the average of `density / sampling density` over its own distinct samples, the selection term is the sum of
`density / (exp(lnpdraw)/weight × Jacobians)` over exactly the injections of the file that pass the thresholds, divided by the number
generated, to the power of the number of events. -/
theorem C122_o4a (I : EventsIn) (hcat : I.cat ≠ []) {ps : List String} (hav : Available ps)
    {f : InjFile} (A : O4aFile f) {ifar snr : ℝ} (hi : ifar ≠ 0) (o3 : Bool) (cuts : Option (List (String × ℝ)))
    {lnp w m1 m2 z : ℕ → ℝ} {s1 s2 : ℕ → ℝ × ℝ × ℝ}
    (hw : ∀ i, 0 < w i) (hm : ∀ i, 0 < m1 i) (hs : "a_1" ∈ ps → ∀ i, normSq (s1 i) ≠ 0 ∧ normSq (s2 i) ≠ 0)
    (e1 : ∀ i, A.C.lnp i = fin (lnp i)) (e2 : ∀ i, A.C.w i = fin (w i)) (e3 : ∀ i, A.C.m1 i = fin (m1 i))
    (e6 : ∀ i, A.C.m2 i = fin (m2 i)) (e7 : ∀ i, A.C.z i = fin (z i))
    (e4 : ∀ i, A.C.s1 i = (fin (s1 i).1, fin (s1 i).2.1, fin (s1 i).2.2))
    (e5 : ∀ i, A.C.s2 i = (fin (s2 i).1, fin (s2 i).2.1, fin (s2 i).2.2))
    {n : ℕ} (htot : A.total = fin n) (hn : A.n ≤ n) (fs : PyDict SavedData) {name : String} (hname : ".h5".toList <:+: name.toList) :
    ∃ inj out fs' L, loadInjections iso joint f ps true o3 ifar snr cuts = .ok inj ∧ I.load iso joint ps = .ok out ∧
      saveIdata fs name out inj = .ok fs' ∧ loadIdata fs' name = .ok L ∧ L.obs_time = A.time / fin 31557600 ∧
      IsLikelihood I ps I.cat I.cat.length (kept A.n (passesO4a A.cols A.C.snr ifar snr)) (injPhys m1 m2 z s1 s2)
        (injDrawn ps (fun i => Real.exp (lnp i) / w i) m1 s1 s2) n L := by
  obtain ⟨inj, h1, h2, h3, h4⟩ := o4a_data (iso := iso) (joint := joint) A hav hi o3 cuts (snr := snr) hw hm hs e1 e2 e3 e6 e7 e4 e5
  obtain ⟨out, fs', L, g1, g2, g3, g4, g5⟩ := end_to_end (iso := iso) (joint := joint) I (available_pe hav) h4
    (fun i _ => injDrawn_pos (div_pos (Real.exp_pos _) (hw i)) (hm i) fun h => hs h i) (h2.trans htot) ((kept_length _ _).trans hn) fs hname none hcat
  exact ⟨inj, out, fs', L, h1, g1, g2, g3, g4.trans h3, g5⟩

/-- **C122 (O3 injections).**  The same for a file with an O3 group, whose density is the file's `sampling_pdf`, with the additional cuts. -/
theorem C122_o3 (I : EventsIn) (hcat : I.cat ≠ []) {ps : List String} (hav : Available ps)
    {f : InjFile} (A : O3File f) (ifar snr : ℝ) {cuts : Option (List (String × ℝ))} (hc : ∀ p ∈ cuts.getD [], p.1 ∈ A.d.cols.keys)
    {pdf m1 m2 z : ℕ → ℝ} {s1 s2 : ℕ → ℝ × ℝ × ℝ}
    (hpdf : ∀ i, 0 < pdf i) (hm : ∀ i, 0 < m1 i) (hs : "a_1" ∈ ps → ∀ i, normSq (s1 i) ≠ 0 ∧ normSq (s2 i) ≠ 0)
    (e1 : ∀ i, A.C.pdf i = fin (pdf i)) (e3 : ∀ i, A.C.m1 i = fin (m1 i))
    (e6 : ∀ i, A.C.m2 i = fin (m2 i)) (e7 : ∀ i, A.C.z i = fin (z i))
    (e4 : ∀ i, A.C.s1 i = (fin (s1 i).1, fin (s1 i).2.1, fin (s1 i).2.2))
    (e5 : ∀ i, A.C.s2 i = (fin (s2 i).1, fin (s2 i).2.1, fin (s2 i).2.2))
    {n : ℕ} (htot : A.total = fin n) (hn : A.d.n ≤ n) (fs : PyDict SavedData) {name : String} (hname : ".h5".toList <:+: name.toList) :
    ∃ inj out fs' L, loadInjections iso joint f ps false true ifar snr cuts = .ok inj ∧ I.load iso joint ps = .ok out ∧
      saveIdata fs name out inj = .ok fs' ∧ loadIdata fs' name = .ok L ∧ L.obs_time = A.time / fin 31557600 ∧
      IsLikelihood I ps I.cat I.cat.length (kept A.d.n (passesO3Cuts A.d A.C.optsnr ifar snr cuts)) (injPhys m1 m2 z s1 s2)
        (injDrawn ps pdf m1 s1 s2) n L := by
  obtain ⟨inj, h1, h2, h3, h4⟩ := C103_o3_partial (iso := iso) (joint := joint) A hav ifar snr hc e1 e3 e4 e5
  obtain ⟨out, fs', L, g1, g2, g3, g4, g5⟩ := end_to_end (iso := iso) (joint := joint) I (available_pe hav) (y := injPhys m1 m2 z s1 s2)
    (ρ := injDrawn ps pdf m1 s1 s2)
    (h4.congr (fun k hk i _ => injValue_phys hav (e3 i) (e6 i) (e7 i) (e4 i) (e5 i) (hm i).ne' (fun h => hs h i) hk) fun i _ => rfl)
    (fun i _ => injDrawn_pos (hpdf i) (hm i) fun h => hs h i) (h2.trans htot) ((kept_length _ _).trans hn) fs hname none hcat
  exact ⟨inj, out, fs', L, h1, g1, g2, g3, g4.trans h3, g5⟩

/-- **C122 is false of an analysis that ignores events:** the value is not the likelihood of the events used.  The selection term is still
raised to the number of events in the file, so that the value exceeds the likelihood of the events used by `(number ignored) × (- log of the
detection efficiency)`. -/
theorem C122_ignored_fails (I : EventsIn) {ps : List String} (hav : Available ps)
    {f : InjFile} (A : O4aFile f) {ifar snr : ℝ} (hi : ifar ≠ 0) (o3 : Bool) (cuts : Option (List (String × ℝ)))
    {lnp w m1 m2 z : ℕ → ℝ} {s1 s2 : ℕ → ℝ × ℝ × ℝ}
    (hw : ∀ i, 0 < w i) (hm : ∀ i, 0 < m1 i) (hs : "a_1" ∈ ps → ∀ i, normSq (s1 i) ≠ 0 ∧ normSq (s2 i) ≠ 0)
    (e1 : ∀ i, A.C.lnp i = fin (lnp i)) (e2 : ∀ i, A.C.w i = fin (w i)) (e3 : ∀ i, A.C.m1 i = fin (m1 i))
    (e6 : ∀ i, A.C.m2 i = fin (m2 i)) (e7 : ∀ i, A.C.z i = fin (z i))
    (e4 : ∀ i, A.C.s1 i = (fin (s1 i).1, fin (s1 i).2.1, fin (s1 i).2.2))
    (e5 : ∀ i, A.C.s2 i = (fin (s2 i).1, fin (s2 i).2.1, fin (s2 i).2.2))
    {n : ℕ} (htot : A.total = fin n) (hn : A.n ≤ n) (fs : PyDict SavedData) {name : String} (hname : ".h5".toList <:+: name.toList)
    {ig : List String} {e : String × PEEvent} (he : e ∈ I.cat) (hig : e.1 ∈ ig) (hne : (I.cat.filter fun e => decide (e.1 ∉ ig)) ≠ []) :
    ∃ inj out fs' L, loadInjections iso joint f ps true o3 ifar snr cuts = .ok inj ∧ I.load iso joint ps = .ok out ∧
      saveIdata fs name out inj = .ok fs' ∧ loadIdata fs' name (some ig) = .ok L ∧
      let K := kept A.n (passesO4a A.cols A.C.snr ifar snr)
      let ρ := injDrawn ps (fun i => Real.exp (lnp i) / w i) m1 s1 s2
      let used := I.cat.filter fun e => decide (e.1 ∉ ig)
      used.length < I.cat.length ∧ IsLikelihood I ps used I.cat.length K (injPhys m1 m2 z s1 s2) ρ n L ∧
      ∀ (dens : (String → ℝ) → ℝ) (sumLogBFs : ℝ), let eff := (K.map fun i => dens (injPhys m1 m2 z s1 s2 i) / ρ i).sum / n
        0 < eff → eff < 1 → sumLogBFs - used.length * Real.log eff < sumLogBFs - I.cat.length * Real.log eff := by
  obtain ⟨inj, h1, h2, h3, h4⟩ := o4a_data (iso := iso) (joint := joint) A hav hi o3 cuts (snr := snr) hw hm hs e1 e2 e3 e6 e7 e4 e5
  obtain ⟨out, fs', L, g1, g2, g3, g4, g5⟩ := end_to_end (iso := iso) (joint := joint) I (available_pe hav) h4
    (fun i _ => injDrawn_pos (div_pos (Real.exp_pos _) (hw i)) (hm i) fun h => hs h i) (h2.trans htot) ((kept_length _ _).trans hn) fs hname (some ig) hne
  have hlt : (I.cat.filter fun e => decide (e.1 ∉ ig)).length < I.cat.length :=
    List.length_filter_lt_length_iff_exists.2 ⟨e, he, by simpa using hig⟩
  refine ⟨inj, out, fs', L, h1, g1, g2, g3, hlt, g5, ?_⟩
  intro dens S eff h0 h1
  have hl := Real.log_neg h0 h1
  have : ((I.cat.filter fun e => decide (e.1 ∉ ig)).length : ℝ) < I.cat.length := by exact_mod_cast hlt
  nlinarith

/-- The hypotheses hold of a concrete case: two events of two samples each, the default cosmology, and the small O4a file. -/
theorem demo_events : ∃ I : EventsIn, I.cat = [("GW1", demoEvent), ("GW2", demoEvent)] ∧ I.mmax = 100 := by
  obtain ⟨s0, hs⟩ := (C52_constructor planck2015LVK 10 0.001).1 planck_flat.2.flat
  obtain ⟨d, hd⟩ := demo_processed s0 100
  refine ⟨⟨planck2015LVK, planck_flat.2, 10, 0.001, by norm_num, by norm_num, s0, hs, [], by simp, s0, [("GW1", demoEvent), ("GW2", demoEvent)], 100,
    _, demo_choice, d, hd, by simp [demoEvent], ?_⟩, rfl, rfl⟩
  intro e he i hi
  have hi' : i < 2 := by
    have := (List.mem_filter.1 hi).1
    simp only [List.mem_cons, List.not_mem_nil, or_false] at he
    rcases he with rfl | rfl <;> simpa [demoEvent] using this
  simp only [List.mem_cons, List.not_mem_nil, or_false] at he
  have : i = 0 ∨ i = 1 := by omega
  rcases he with rfl | rfl <;> rcases this with rfl | rfl <;> simp [rawValue, sampleValue, demoEvent, PEEvent.row]

/-- the value for the default flags without cuts and the density that is constant in the masses -/
example : ∃ (I : EventsIn) (L : Loaded), I.cat.length = 2 ∧ ∃ v, factors (analyse ⟨true, false, false, false, false⟩ (fun _ => fin 1) L (some (fin 1)) (fin 1)).1 = [fin v] := by
  obtain ⟨I, hI, hmm⟩ := demo_events
  obtain ⟨inj, out, fs', L, -, -, -, -, -, k, hk, hk', zmax, pe, pc, σ, -, -, -, -, hpr, h⟩ := C122_o4a (iso := fun _ _ => .ok (fin 1)) (joint := fun _ _ _ => .ok (fin 1)) I (by rw [hI]; simp)
    (ps := ["mass_1", "mass_ratio", "redshift"]) (by intro k hk; exact .inl (by revert hk; simp; tauto)) demoLoadO4a (ifar := 1) (snr := 10) one_ne_zero true none
    (lnp := fun _ => -5) (w := fun _ => 1) (m1 := fun _ => 30) (m2 := fun _ => 20) (z := fun _ => 1 / 2) (s1 := fun _ => (0, 0, 1 / 2)) (s2 := fun _ => (0, 0, 1 / 4))
    (by norm_num) (by norm_num) (by norm_num [normSq]) (fun _ => rfl) (fun _ => rfl) (fun _ => rfl) (fun _ => rfl) (fun _ => rfl)
    (fun _ => rfl) (fun _ => rfl) (n := 100) (by simp [demoLoadO4a]) (by simp [demoLoadO4a]) [] (name := "catalogue.h5") ⟨"catalogue".toList, [], by simp⟩
  refine ⟨I, L, by rw [hI]; rfl, _, h _ (fun _ => 1) (fun _ _ _ => rfl) (fun _ => zero_le_one) _ _ _ ?_ ?_ ?_ ?_ ?_ ?_⟩
  · simp [Flags.ok]
  · simp
  · have hk0 : 0 < k := by
      rcases hk' with rfl | ⟨e, he, rfl⟩
      · norm_num
      · refine List.length_pos_iff.2 (List.ne_nil_of_mem (a := 0) ?_)
        rw [hI] at he
        simp only [List.mem_cons, List.not_mem_nil, or_false] at he
        rw [hmm]
        rcases he with rfl | rfl <;> (simp [survivors, survives, demoEvent, PEEvent.row]; norm_num)
    exact fun e => ⟨⟨0, hk0⟩, one_pos⟩
  · refine ⟨0, mem_kept.2 ⟨by simp [demoLoadO4a], .inl ?_⟩, one_pos⟩
    simp [demoLoadO4a, F.ge, F.le]; norm_num
  · simp
  · simp

end GW
end
