import Verif.Model.LoadData
import Verif.Props.Selection
import Verif.Props.DataCollection
import Verif.Props.PEPrior

/-!
# C103, C104: the data sets an analysis starts from
-/

noncomputable section
open Classical
namespace GW
open _root_.F
open Cosmo

/-! ## specification -/

/-- the value of a parameter for injection `i`, in terms of the physical columns of the file: source-frame masses, redshift and the two
spin vectors -/
def injValue (m1 m2 z : ℕ → F) (s1 s2 : ℕ → F × F × F) (k : String) (i : ℕ) : F :=
  if k = "mass_1" then m1 i else if k = "mass_2" then m2 i else if k = "mass_ratio" then m2 i / m1 i else if k = "redshift" then z i
  else if k = "a_1" then vecLen (s1 i) else if k = "a_2" then vecLen (s2 i)
  else if k = "cos_tilt_1" then (s1 i).2.2 / vecLen (s1 i) else if k = "cos_tilt_2" then (s2 i).2.2 / vecLen (s2 i) else nan

/-- A data set with exactly the requested rows and the prior, over the injections (or samples) `K` in order. -/
structure Requested (rows : PyDict (List F)) (ps : List String) (K : List ℕ) (val : String → ℕ → F) (prior : ℕ → F) : Prop where
  names : ∀ k, k ∈ rows.keys ↔ k ∈ ps ∨ k = "prior"
  once : rows.keys.Nodup
  value : ∀ k ∈ ps, rows.get? k = some (K.map (val k))
  prior_row : rows.get? "prior" = some (K.map prior)

/-- the names that can be requested: masses and redshift always, spins together with `a_1` -/
def Available (ps : List String) : Prop :=
  ∀ k ∈ ps, k ∈ ["mass_1", "mass_2", "mass_ratio", "redshift"] ∨ ("a_1" ∈ ps ∧ k ∈ ["a_1", "a_2", "cos_tilt_1", "cos_tilt_2"])

/-! ## dictionaries -/

theorem PyDict.get?_filter {α : Type} (d : PyDict α) (P : String → Prop) [DecidablePred P] (k : String) (hk : P k) :
    PyDict.get? (d.filter fun c => decide (P c.1)) k = d.get? k := by
  induction d with
  | nil => rfl
  | cons c d ih =>
    obtain ⟨k', v⟩ := c
    by_cases h : P k'
    · rw [List.filter_cons_of_pos (by simpa using h)]
      simp only [PyDict.get?, ih]
    · rw [List.filter_cons_of_neg (by simpa using h), ih]
      have : k' ≠ k := fun e => h (e ▸ hk)
      simp only [PyDict.get?, if_neg this]

theorem PyDict.keys_filter {α : Type} (d : PyDict α) (P : String → Prop) [DecidablePred P] :
    PyDict.keys (d.filter fun c => decide (P c.1)) = d.keys.filter fun k => decide (P k) := by
  induction d with
  | nil => rfl
  | cons c d ih =>
    obtain ⟨k', v⟩ := c
    by_cases h : P k'
    · rw [List.filter_cons_of_pos (by simpa using h)]
      simp only [PyDict.keys, List.map_cons] at ih ⊢
      rw [List.filter_cons_of_pos (by simpa using h), ih]
    · rw [List.filter_cons_of_neg (by simpa using h)]
      simp only [PyDict.keys, List.map_cons] at ih ⊢
      rw [List.filter_cons_of_neg (by simpa using h), ih]

theorem keep_requested {rows : PyDict (List F)} {ps : List String} (hnd : rows.keys.Nodup) (hsub : ∀ k ∈ ps, k ∈ rows.keys)
    (hpr : "prior" ∈ rows.keys) (hps : "prior" ∉ ps) {K : List ℕ} {val : String → ℕ → F} {prior : ℕ → F}
    (hv : ∀ k ∈ ps, rows.get? k = some (K.map (val k))) (hp : rows.get? "prior" = some (K.map prior)) :
    ∃ out, keepParams rows ps = .ok out ∧ Requested out ps K val prior := by
  refine ⟨_, C89_rows hnd hsub hpr hps, ?_, ?_, ?_, ?_⟩
  · intro k
    rw [PyDict.keys_filter rows (fun k => k ∈ ps ∨ k = "prior"), List.mem_filter, decide_eq_true_eq]
    constructor
    · exact fun h => h.2
    · rintro (h | rfl)
      · exact ⟨hsub k h, .inl h⟩
      · exact ⟨hpr, .inr rfl⟩
  · rw [PyDict.keys_filter rows (fun k => k ∈ ps ∨ k = "prior")]
    exact hnd.filter _
  · intro k hk
    rw [PyDict.get?_filter rows (fun k => k ∈ ps ∨ k = "prior") k (.inl hk)]
    exact hv k hk
  · rw [PyDict.get?_filter rows (fun k => k ∈ ps ∨ k = "prior") _ (.inr rfl)]
    exact hp

/-! ## C103: injections -/

section
variable {m1 m2 z pr : ℕ → F} {s1 s2 : ℕ → F × F × F} {K : List ℕ} {rows : PyDict (List F)} {spins : Prop} [Decidable spins]

/-- the rows both readers return -/
def fullRows (K : List ℕ) (m1 m2 z pr : ℕ → F) (s1 s2 : ℕ → F × F × F) (spins : Prop) [Decidable spins] : PyDict (List F) :=
  [("mass_1", K.map m1), ("mass_2", K.map m2), ("mass_ratio", K.map fun i => m2 i / m1 i), ("redshift", K.map z), ("prior", K.map pr)] ++
    (if spins then
      [("a_1", K.map fun i => vecLen (s1 i)), ("cos_tilt_1", K.map fun i => (s1 i).2.2 / vecLen (s1 i)),
        ("a_2", K.map fun i => vecLen (s2 i)), ("cos_tilt_2", K.map fun i => (s2 i).2.2 / vecLen (s2 i))] else [])

theorem fullRows_keys : (fullRows K m1 m2 z pr s1 s2 spins).keys =
    ["mass_1", "mass_2", "mass_ratio", "redshift", "prior"] ++ (if spins then ["a_1", "cos_tilt_1", "a_2", "cos_tilt_2"] else []) := by
  unfold fullRows PyDict.keys
  by_cases h : spins
  · simp only [if_pos h, List.map_append, List.map_cons, List.map_nil]
  · simp only [if_neg h, List.map_append, List.map_cons, List.map_nil]

theorem fullRows_nodup : (fullRows K m1 m2 z pr s1 s2 spins).keys.Nodup := by
  rw [fullRows_keys]
  by_cases h : spins
  · rw [if_pos h]; decide
  · rw [if_neg h]; decide

theorem fullRows_value {k : String} (h : k ∈ ["mass_1", "mass_2", "mass_ratio", "redshift"] ∨
    (spins ∧ k ∈ ["a_1", "a_2", "cos_tilt_1", "cos_tilt_2"])) :
    (fullRows K m1 m2 z pr s1 s2 spins).get? k = some (K.map (injValue m1 m2 z s1 s2 k)) := by
  rcases h with h | ⟨hs, h⟩
  · simp only [List.mem_cons, List.not_mem_nil, or_false] at h
    rcases h with rfl | rfl | rfl | rfl <;> simp [fullRows, PyDict.get?, injValue]
  · simp only [List.mem_cons, List.not_mem_nil, or_false] at h
    rcases h with rfl | rfl | rfl | rfl <;> simp [fullRows, PyDict.get?, injValue, hs]

theorem fullRows_prior : (fullRows K m1 m2 z pr s1 s2 spins).get? "prior" = some (K.map pr) := by
  simp [fullRows, PyDict.get?]

theorem full_requested {ps : List String} (hav : Available ps) :
    ∃ out, keepParams (fullRows K m1 m2 z pr s1 s2 ("a_1" ∈ ps ∨ "chi_eff" ∈ ps)) ps = .ok out ∧
      Requested out ps K (injValue m1 m2 z s1 s2) pr := by
  have hps : "prior" ∉ ps := by
    intro h
    rcases hav _ h with h | ⟨_, h⟩ <;> exact absurd h (by decide)
  have hv : ∀ k ∈ ps, (fullRows K m1 m2 z pr s1 s2 ("a_1" ∈ ps ∨ "chi_eff" ∈ ps)).get? k = some (K.map (injValue m1 m2 z s1 s2 k)) := by
    intro k hk
    exact fullRows_value ((hav k hk).imp id fun h => ⟨.inl h.1, h.2⟩)
  exact keep_requested fullRows_nodup (fun k hk => (PyDict.mem_keys_iff _ _).2 ⟨_, hv k hk⟩)
    ((PyDict.mem_keys_iff _ _).2 ⟨_, fullRows_prior⟩) hps hv fullRows_prior

end

/-- an injection file with an O4a table -/
structure O4aFile (f : InjFile) where
  n : ℕ
  cols : PyDict (ℕ → F)
  C : O4aCols cols
  total : F
  time : F
  hev : f.events = some (n, cols)
  htot : f.fileTotal = some total
  htime : FileTime f.attrs time

/-- an injection file with an O3 group -/
structure O3File (f : InjFile) where
  d : O3Data
  C : O3Cols d
  total : F
  time : F
  hev : f.injections = some d
  htot : f.groupTotal = some total
  htime : FileTime f.attrs time

theorem readO4a_rows {f : InjFile} (A : O4aFile f) {ifar snr : ℝ} (hi : ifar ≠ 0) (ps : List String) :
    readO4a f ps ifar snr = .ok ⟨fullRows (kept A.n (passesO4a A.cols A.C.snr ifar snr)) A.C.m1 A.C.m2 A.C.z (priorO4a A.C ps) A.C.s1 A.C.s2
      ("a_1" ∈ ps ∨ "chi_eff" ∈ ps), A.total, A.time / fin 31557600⟩ := by
  obtain ⟨r, h1, h2, h3, h4⟩ := getO4a_rows A.C A.htime hi (n := A.n) (snr := snr) (tg := A.total) ps
  have : o4aFound A.cols A.C.snr ifar snr = passesO4a A.cols A.C.snr ifar snr := funext fun i => propext (o4aFound_iff _ _ _ _ _)
  rw [this] at h4
  unfold readO4a
  simp only [A.htot, A.hev, orKey, bind, Except.bind, h1]
  obtain ⟨rw', tg', at'⟩ := r
  simp only at h2 h3 h4
  rw [h2, h3, h4]
  rfl

/-- what additional cuts do to an O3 selection: they add every injection that satisfies one of them (see C65) -/
def passesO3Cuts (d : O3Data) (optsnr : ℕ → F) (ifar snr : ℝ) (cuts : Option (List (String × ℝ))) (i : ℕ) : Prop :=
  passesO3 d optsnr ifar snr i ∨ ∃ k v c, (k, v) ∈ cuts.getD [] ∧ d.cols.get? k = some c ∧ F.ge (c i) (fin v)

theorem readO3_rows {f : InjFile} (A : O3File f) (ifar snr : ℝ) {cuts : Option (List (String × ℝ))}
    (hc : ∀ p ∈ cuts.getD [], p.1 ∈ A.d.cols.keys) (ps : List String) :
    readO3 f ps ifar snr cuts = .ok ⟨fullRows (kept A.d.n (passesO3Cuts A.d A.C.optsnr ifar snr cuts)) A.C.m1 A.C.m2 A.C.z (priorO3 A.C ps) A.C.s1 A.C.s2
      ("a_1" ∈ ps ∨ "chi_eff" ∈ ps), A.total, A.time / fin 31557600⟩ := by
  obtain ⟨Q, hQ⟩ := o3Cuts_total hc (o3Found A.d A.C.optsnr ifar snr)
  obtain ⟨r, h1, h2, h3, h4⟩ := getO3_rows A.C A.htime (tg := A.total) (cuts := cuts) (Q := Q) hQ ps
  have : Q = passesO3Cuts A.d A.C.optsnr ifar snr cuts := funext fun i => propext (by
    rw [o3Cuts_iff _ _ _ _ hQ i, o3Found_iff]; rfl)
  rw [this] at h4
  unfold readO3
  simp only [A.htot, A.hev, orKey, bind, Except.bind, h1]
  obtain ⟨rw', tg', at'⟩ := r
  simp only at h2 h3 h4
  rw [h2, h3, h4]
  rfl

variable {iso : ℝ → ℝ → Except PyErr F} {joint : ℝ → ℝ → ℝ → Except PyErr F}

/-- **C103 (O4a), partial** (missing: effective spins, see below).  For every file, threshold and list of available names, the data set has
exactly the requested rows and the prior, over exactly the detected injections in file order; each row holds that parameter of those
injections; the numbers of generated injections and of years are those of the file. -/
theorem C103_o4a_partial {f : InjFile} (A : O4aFile f) {ps : List String} (hav : Available ps) {ifar snr : ℝ} (hi : ifar ≠ 0) (o3 : Bool)
    (cuts : Option (List (String × ℝ)))
    {lnp w m1 : ℕ → ℝ} {s1 s2 : ℕ → ℝ × ℝ × ℝ} (hw : ∀ i, w i ≠ 0)
    (e1 : ∀ i, A.C.lnp i = fin (lnp i)) (e2 : ∀ i, A.C.w i = fin (w i)) (e3 : ∀ i, A.C.m1 i = fin (m1 i))
    (e4 : ∀ i, A.C.s1 i = (fin (s1 i).1, fin (s1 i).2.1, fin (s1 i).2.2))
    (e5 : ∀ i, A.C.s2 i = (fin (s2 i).1, fin (s2 i).2.1, fin (s2 i).2.2)) :
    ∃ r, loadInjections iso joint f ps true o3 ifar snr cuts = .ok r ∧ r.total_generated = A.total ∧ r.analysis_time = A.time / fin 31557600 ∧
      Requested r.rows ps (kept A.n (passesO4a A.cols A.C.snr ifar snr)) (injValue A.C.m1 A.C.m2 A.C.z A.C.s1 A.C.s2) fun i =>
        fin (Real.exp (lnp i) / w i * (if "mass_ratio" ∈ ps then m1 i else 1) *
          (if "a_1" ∈ ps then (2 * Real.pi * ((s1 i).1 ^ 2 + (s1 i).2.1 ^ 2 + (s1 i).2.2 ^ 2)) *
            (2 * Real.pi * ((s2 i).1 ^ 2 + (s2 i).2.1 ^ 2 + (s2 i).2.2 ^ 2)) else 1)) := by
  have hce : "chi_eff" ∉ ps := by
    intro h
    rcases hav _ h with h | ⟨_, h⟩ <;> exact absurd h (by decide)
  obtain ⟨out, h1, h2⟩ := full_requested (m1 := A.C.m1) (m2 := A.C.m2) (z := A.C.z) (pr := priorO4a A.C ps) (s1 := A.C.s1) (s2 := A.C.s2)
    (K := kept A.n (passesO4a A.cols A.C.snr ifar snr)) hav
  refine ⟨⟨out, A.total, A.time / fin 31557600⟩, ?_, rfl, rfl, ?_⟩
  · unfold loadInjections
    simp only [if_true, readO4a_rows A hi, bind, Except.bind, if_neg hce, h1, pure, Except.pure]
  · refine ⟨h2.names, h2.once, h2.value, ?_⟩
    rw [h2.prior_row]
    obtain ⟨r, g1, g2⟩ := C66_prior_o4a (n := A.n) A.C A.htime (tg := A.total) hi (snr := snr) ps hw e1 e2 e3 e4 e5
    have g3 := readO4a_rows A hi (snr := snr) ps
    unfold readO4a at g3
    simp only [A.htot, A.hev, orKey, bind, Except.bind, g1] at g3
    rw [Except.ok.inj g3] at g2
    rw [fullRows_prior] at g2
    rw [g2]
    simp only [hce, or_false]

/-- **C103 (O3), partial.** The same for O3 files; with additional cuts the selected injections are those that
pass a detection threshold or one of the cuts. -/
theorem C103_o3_partial {f : InjFile} (A : O3File f) {ps : List String} (hav : Available ps) (ifar snr : ℝ)
    {cuts : Option (List (String × ℝ))} (hc : ∀ p ∈ cuts.getD [], p.1 ∈ A.d.cols.keys)
    {pdf m1 : ℕ → ℝ} {s1 s2 : ℕ → ℝ × ℝ × ℝ} (e1 : ∀ i, A.C.pdf i = fin (pdf i)) (e3 : ∀ i, A.C.m1 i = fin (m1 i))
    (e4 : ∀ i, A.C.s1 i = (fin (s1 i).1, fin (s1 i).2.1, fin (s1 i).2.2))
    (e5 : ∀ i, A.C.s2 i = (fin (s2 i).1, fin (s2 i).2.1, fin (s2 i).2.2)) :
    ∃ r, loadInjections iso joint f ps false true ifar snr cuts = .ok r ∧ r.total_generated = A.total ∧ r.analysis_time = A.time / fin 31557600 ∧
      Requested r.rows ps (kept A.d.n (passesO3Cuts A.d A.C.optsnr ifar snr cuts)) (injValue A.C.m1 A.C.m2 A.C.z A.C.s1 A.C.s2) fun i =>
        fin (pdf i * (if "mass_ratio" ∈ ps then m1 i else 1) *
          (if "a_1" ∈ ps then (2 * Real.pi * ((s1 i).1 ^ 2 + (s1 i).2.1 ^ 2 + (s1 i).2.2 ^ 2)) *
            (2 * Real.pi * ((s2 i).1 ^ 2 + (s2 i).2.1 ^ 2 + (s2 i).2.2 ^ 2)) else 1)) := by
  have hce : "chi_eff" ∉ ps := by
    intro h
    rcases hav _ h with h | ⟨_, h⟩ <;> exact absurd h (by decide)
  obtain ⟨out, h1, h2⟩ := full_requested (m1 := A.C.m1) (m2 := A.C.m2) (z := A.C.z) (pr := priorO3 A.C ps) (s1 := A.C.s1) (s2 := A.C.s2)
    (K := kept A.d.n (passesO3Cuts A.d A.C.optsnr ifar snr cuts)) hav
  refine ⟨⟨out, A.total, A.time / fin 31557600⟩, ?_, rfl, rfl, ?_⟩
  · unfold loadInjections
    simp only [Bool.false_eq_true, if_false, if_true, readO3_rows A ifar snr hc, bind, Except.bind, if_neg hce, h1, pure, Except.pure]
  · refine ⟨h2.names, h2.once, h2.value, ?_⟩
    rw [h2.prior_row]
    congr 2
    funext i
    rw [priorO3_val A.C ps e1 e3 e4 e5 i]
    simp only [hce, or_false]

/-- **C103 (O3), no cuts:** exactly the injections that pass a detection threshold. -/
theorem C103_o3_no_cuts (d : O3Data) (optsnr : ℕ → F) (ifar snr : ℝ) (i : ℕ) :
    passesO3Cuts d optsnr ifar snr none i ↔ passesO3 d optsnr ifar snr i := by
  simp [passesO3Cuts]

/-- **C103 (which file).** With both flags set the file is read as an O4a file; with none the call is refused. -/
theorem C103_flags (f : InjFile) (ps : List String) (ifar snr : ℝ) (cuts : Option (List (String × ℝ))) :
    loadInjections iso joint f ps true true ifar snr cuts = loadInjections iso joint f ps true false ifar snr cuts ∧
    loadInjections iso joint f ps false false ifar snr cuts = .error .assertionError := by
  constructor
  · rfl
  · simp [loadInjections, bind, Except.bind]

/-- **C103 is false of the additional cuts:** for O4a files they are ignored. -/
theorem C103_o4a_cuts_fails (f : InjFile) (ps : List String) (o3 : Bool) (ifar snr : ℝ) (cuts : List (String × ℝ)) :
    loadInjections iso joint f ps true o3 ifar snr (some cuts) = loadInjections iso joint f ps true o3 ifar snr none := rfl

/-- **C103 is false of spin parameters requested without `a_1`:** asking only for the secondary spin or for a tilt raises an error,
whatever the file. -/
theorem C103_secondary_spin_fails {f : InjFile} (A : O4aFile f) {ps : List String} (h1 : "a_1" ∉ ps) (h2 : "chi_eff" ∉ ps) (h3 : "prior" ∉ ps)
    {k : String} (hk : k ∈ ["a_2", "cos_tilt_1", "cos_tilt_2"]) (hkp : k ∈ ps) {ifar snr : ℝ} (hi : ifar ≠ 0) (o3 : Bool)
    (cuts : Option (List (String × ℝ))) :
    ∃ k', loadInjections iso joint f ps true o3 ifar snr cuts = .error (.keyError k') := by
  have hns : ¬ ("a_1" ∈ ps ∨ "chi_eff" ∈ ps) := by simp [h1, h2]
  have hmiss : ∃ k ∈ ps, k ∉ (fullRows (kept A.n (passesO4a A.cols A.C.snr ifar snr)) A.C.m1 A.C.m2 A.C.z (priorO4a A.C ps) A.C.s1 A.C.s2
      ("a_1" ∈ ps ∨ "chi_eff" ∈ ps)).keys := by
    refine ⟨k, hkp, ?_⟩
    rw [fullRows_keys, if_neg hns]
    simp only [List.mem_cons, List.not_mem_nil, or_false] at hk
    rcases hk with rfl | rfl | rfl <;> decide
  obtain ⟨k', _, _, h⟩ := (C89_errors ((PyDict.mem_keys_iff _ _).2 ⟨_, fullRows_prior⟩)).2 h3 hmiss
  refine ⟨k', ?_⟩
  unfold loadInjections
  simp only [if_true, readO4a_rows A hi, bind, Except.bind, if_neg h2, h]

/-! ### effective spins -/

/-- squared length of a spin vector -/
def normSq (v : ℝ × ℝ × ℝ) : ℝ := v.1 ^ 2 + v.2.1 ^ 2 + v.2.2 ^ 2

theorem vecLen_real (v : ℝ × ℝ × ℝ) : vecLen (fin v.1, fin v.2.1, fin v.2.2) = fin (√(normSq v)) := vecLen_fin _ _ _

theorem priorO4a_fin {cols : PyDict (ℕ → F)} (C : O4aCols cols) {ps : List String} {i : ℕ} {lnp w m1 : ℝ} {s1 s2 : ℝ × ℝ × ℝ} (hw : w ≠ 0)
    (e1 : C.lnp i = fin lnp) (e2 : C.w i = fin w) (e3 : C.m1 i = fin m1) (e4 : C.s1 i = (fin s1.1, fin s1.2.1, fin s1.2.2))
    (e5 : C.s2 i = (fin s2.1, fin s2.2.1, fin s2.2.2)) (hs : "a_1" ∈ ps ∨ "chi_eff" ∈ ps) :
    priorO4a C ps i = fin (Real.exp lnp / w * (if "mass_ratio" ∈ ps then m1 else 1) *
      ((2 * Real.pi * normSq s1) * (2 * Real.pi * normSq s2))) := by
  have hsq : ∀ v : ℝ × ℝ × ℝ, √(normSq v) * √(normSq v) = normSq v := fun v => Real.mul_self_sqrt (by unfold normSq; positivity)
  unfold priorO4a
  rw [e1, e2, e3, e4, e5, vecLen_real, vecLen_real]
  simp only [exp_fin, div_fin hw, sq_fin, mul_fin, hsq, if_pos hs]
  split_ifs <;> simp only [mul_fin, fin_inj] <;> ring

theorem priorO3_fin {d : O3Data} (C : O3Cols d) {ps : List String} {i : ℕ} {pdf m1 : ℝ} {s1 s2 : ℝ × ℝ × ℝ}
    (e1 : C.pdf i = fin pdf) (e3 : C.m1 i = fin m1) (e4 : C.s1 i = (fin s1.1, fin s1.2.1, fin s1.2.2))
    (e5 : C.s2 i = (fin s2.1, fin s2.2.1, fin s2.2.2)) (hs : "a_1" ∈ ps ∨ "chi_eff" ∈ ps) :
    priorO3 C ps i = fin (pdf * (if "mass_ratio" ∈ ps then m1 else 1) * ((2 * Real.pi * normSq s1) * (2 * Real.pi * normSq s2))) := by
  have hsq : ∀ v : ℝ × ℝ × ℝ, √(normSq v) * √(normSq v) = normSq v := fun v => Real.mul_self_sqrt (by unfold normSq; positivity)
  unfold priorO3
  rw [e1, e3, e4, e5, vecLen_real, vecLen_real]
  simp only [sq_fin, mul_fin, hsq, if_pos hs]
  split_ifs <;> simp only [mul_fin, fin_inj] <;> ring

theorem range_getD {β : Type} (K : List ℕ) (g : ℕ → β) (h : (ℕ → β)) (hh : ∀ j (hj : j < K.length), h j = g K[j]) :
    (List.range K.length).map h = K.map g := by
  apply List.ext_getElem
  · simp
  · intro j h1 h2
    have hj : j < K.length := by simpa using h1
    simp [hh j hj]

theorem getD_map (K : List ℕ) (f : ℕ → F) {j : ℕ} (hj : j < K.length) : (K.map f).getD j F.nan = f K[j] := by
  simp [List.getD_eq_getElem?_getD, List.getElem?_eq_getElem hj]

section
variable {m1 m2 z pr : ℕ → F} {s1 s2 : ℕ → F × F × F} {K : List ℕ}

theorem injSamples_full : injSamples (fullRows K m1 m2 z pr s1 s2 True) = .ok (K.map fun i =>
    ⟨(m2 i / m1 i).toReal, (vecLen (s1 i)).toReal, (vecLen (s2 i)).toReal, ((s1 i).2.2 / vecLen (s1 i)).toReal,
      ((s2 i).2.2 / vecLen (s2 i)).toReal, (pr i).toReal⟩) := by
  unfold injSamples
  have e := fun k h => fullRows_value (K := K) (m1 := m1) (m2 := m2) (z := z) (pr := pr) (s1 := s1) (s2 := s2) (spins := True) (k := k) h
  rw [e "mass_ratio" (.inl (by decide)), e "a_1" (.inr ⟨trivial, by decide⟩), e "a_2" (.inr ⟨trivial, by decide⟩),
    e "cos_tilt_1" (.inr ⟨trivial, by decide⟩), e "cos_tilt_2" (.inr ⟨trivial, by decide⟩), fullRows_prior]
  simp only [orKey, bind, Except.bind, pure, Except.pure, List.length_map]
  congr 1
  refine range_getD K _ _ fun j hj => ?_
  simp only [getD_map K _ hj, injValue, String.reduceEq, if_true, if_false, reduceCtorEq]

/-- the rows after the conversion and the removal -/
theorem convert_full {ps : List String} {conv : List (ℝ × Option ℝ × F)} {samples : List SpinSample}
    (h1 : injSamples (fullRows K m1 m2 z pr s1 s2 True) = .ok samples) (h2 : convertInj iso joint ps samples = .ok conv) :
    ∃ mid, convertInjRows iso joint ps (fullRows K m1 m2 z pr s1 s2 True) = .ok mid ∧
      dropSel mid (removedForChieff ps) = .ok ([("mass_1", K.map m1)] ++
        (if "mass_2" ∈ ps then [("mass_2", K.map m2)] else [("mass_ratio", K.map fun i => m2 i / m1 i)]) ++
        [("redshift", K.map z), ("chi_eff", conv.map fun t => fin t.1), ("prior", conv.map fun t => t.2.2)] ++
        (if "chi_p" ∈ ps then [("chi_p", conv.map fun t => fin (t.2.1.getD 0))] else [])) := by
  unfold convertInjRows
  rw [h1]
  simp only [bind, Except.bind, h2]
  have hd : dropSel (fullRows K m1 m2 z pr s1 s2 True) ["prior"] = .ok [("mass_1", K.map m1), ("mass_2", K.map m2),
      ("mass_ratio", K.map fun i => m2 i / m1 i), ("redshift", K.map z), ("a_1", K.map fun i => vecLen (s1 i)),
      ("cos_tilt_1", K.map fun i => (s1 i).2.2 / vecLen (s1 i)),
        ("a_2", K.map fun i => vecLen (s2 i)), ("cos_tilt_2", K.map fun i => (s2 i).2.2 / vecLen (s2 i))] := by
    unfold dropSel
    rw [fullRows_keys]
    simp [fullRows]
  rw [hd]
  refine ⟨_, rfl, ?_⟩
  unfold dropSel removedForChieff PyDict.keys
  by_cases hm : "mass_2" ∈ ps <;> by_cases hp : "chi_p" ∈ ps <;> simp [hm, hp]

end

theorem mapE_map {α β γ : Type} (g : β → Except PyErr γ) (f : α → β) (h : α → γ) (l : List α) (hh : ∀ a ∈ l, g (f a) = .ok (h a)) :
    mapE g (l.map f) = .ok (l.map h) := by
  induction l with
  | nil => rfl
  | cons a l ih =>
    simp only [List.map_cons, mapE, hh a List.mem_cons_self, ih fun b hb => hh b (List.mem_cons_of_mem _ hb)]

/-- the effective spin in terms of masses and spin components along the orbital angular momentum -/
def massWeightedSpin (m1 m2 : ℝ) (s1 s2 : ℝ × ℝ × ℝ) : ℝ := (m1 * s1.2.2 + m2 * s2.2.2) / (m1 + m2)

theorem chieffSample_real {v : ℝ → ℝ → ℝ} (hv : ∀ x q, iso x q = .ok (fin (v x q))) {m1 m2 p : ℝ} {s1 s2 : ℝ × ℝ × ℝ}
    (hm : m1 ≠ 0) (hs : m1 + m2 ≠ 0) (h1 : normSq s1 ≠ 0) (h2 : normSq s2 ≠ 0) :
    chieffSample iso ⟨m2 / m1, √(normSq s1), √(normSq s2), s1.2.2 / √(normSq s1), s2.2.2 / √(normSq s2),
        p * ((2 * Real.pi * normSq s1) * (2 * Real.pi * normSq s2))⟩ =
      .ok (massWeightedSpin m1 m2 s1 s2, fin (p * v (massWeightedSpin m1 m2 s1 s2) (m2 / m1))) := by
  have g1 : 0 ≤ normSq s1 := by unfold normSq; positivity
  have g2 : 0 ≤ normSq s2 := by unfold normSq; positivity
  have r1 : √(normSq s1) ≠ 0 := (Real.sqrt_ne_zero g1).2 h1
  have r2 : √(normSq s2) ≠ 0 := (Real.sqrt_ne_zero g2).2 h2
  have hx : chieff (m2 / m1) √(normSq s1) √(normSq s2) (s1.2.2 / √(normSq s1)) (s2.2.2 / √(normSq s2)) = massWeightedSpin m1 m2 s1 s2 := by
    unfold chieff massWeightedSpin
    rw [mul_div_cancel₀ _ r1, mul_assoc, mul_div_cancel₀ _ r2]
    have : 1 + m2 / m1 ≠ 0 := by
      intro h
      apply hs
      field_simp at h
      linarith
    field_simp
  unfold chieffSample
  simp only [hx, hv]
  unfold newPrior
  rw [Real.sq_sqrt g1, Real.sq_sqrt g2]
  have hj : (2 * Real.pi * normSq s1) * (2 * Real.pi * normSq s2) ≠ 0 := by
    have := Real.pi_ne_zero
    positivity
  rw [F.div_fin hj, F.mul_fin, mul_div_assoc, div_self hj, mul_one]

/-- the second half of the loader, on the rows of either reader -/
theorem finish_chieff {ps : List String} (hcp : "chi_p" ∉ ps) {v : ℝ → ℝ → ℝ} (hv : ∀ x q, iso x q = .ok (fin (v x q)))
    {K : List ℕ} {M1 M2 Z PR : ℕ → F} {S1 S2 : ℕ → F × F × F} {base m1 m2 : ℕ → ℝ} {s1 s2 : ℕ → ℝ × ℝ × ℝ} (hm : ∀ i, 0 < m1 i) (hm2 : ∀ i, 0 < m2 i)
    (hs1 : ∀ i, normSq (s1 i) ≠ 0) (hs2 : ∀ i, normSq (s2 i) ≠ 0)
    (hpr : ∀ i, PR i = fin (base i * ((2 * Real.pi * normSq (s1 i)) * (2 * Real.pi * normSq (s2 i)))))
    (e3 : ∀ i, M1 i = fin (m1 i)) (e6 : ∀ i, M2 i = fin (m2 i))
    (e4 : ∀ i, S1 i = (fin (s1 i).1, fin (s1 i).2.1, fin (s1 i).2.2)) (e5 : ∀ i, S2 i = (fin (s2 i).1, fin (s2 i).2.1, fin (s2 i).2.2)) :
    ∃ mid, convertInjRows iso joint ps (fullRows K M1 M2 Z PR S1 S2 True) = .ok mid ∧
      dropSel mid (removedForChieff ps) = .ok [("mass_1", K.map fun i => fin (m1 i)),
        (if "mass_2" ∈ ps then ("mass_2", K.map fun i => fin (m2 i)) else ("mass_ratio", K.map fun i => fin (m2 i / m1 i))),
        ("redshift", K.map Z), ("chi_eff", K.map fun i => fin (massWeightedSpin (m1 i) (m2 i) (s1 i) (s2 i))),
        ("prior", K.map fun i => fin (base i * v (massWeightedSpin (m1 i) (m2 i) (s1 i) (s2 i)) (m2 i / m1 i)))] := by
  have hconv : convertInj iso joint ps (K.map fun i =>
      (⟨(M2 i / M1 i).toReal, (vecLen (S1 i)).toReal, (vecLen (S2 i)).toReal, ((S1 i).2.2 / vecLen (S1 i)).toReal,
        ((S2 i).2.2 / vecLen (S2 i)).toReal, (PR i).toReal⟩ : SpinSample)) = .ok (K.map fun i =>
        (massWeightedSpin (m1 i) (m2 i) (s1 i) (s2 i), none, fin (base i * v (massWeightedSpin (m1 i) (m2 i) (s1 i) (s2 i)) (m2 i / m1 i)))) := by
    unfold convertInj
    rw [if_neg hcp, mapE_map (h := fun i => (massWeightedSpin (m1 i) (m2 i) (s1 i) (s2 i),
      fin (base i * v (massWeightedSpin (m1 i) (m2 i) (s1 i) (s2 i)) (m2 i / m1 i)))) (hh := ?_)]
    · simp only [Except.map, List.map_map, Function.comp_def]
    · intro i _
      have g1 : 0 ≤ normSq (s1 i) := by unfold normSq; positivity
      have g2 : 0 ≤ normSq (s2 i) := by unfold normSq; positivity
      rw [hpr, e3, e6, e4, e5, vecLen_real, vecLen_real,
        F.div_fin (hm i).ne', F.div_fin ((Real.sqrt_ne_zero g1).2 (hs1 i)), F.div_fin ((Real.sqrt_ne_zero g2).2 (hs2 i))]
      simp only [toReal_fin]
      exact chieffSample_real hv (hm i).ne' (add_pos (hm i) (hm2 i)).ne' (hs1 i) (hs2 i)
  obtain ⟨mid, h1, h2⟩ := convert_full (z := Z) injSamples_full hconv
  refine ⟨mid, h1, h2.trans ?_⟩
  congr 1
  obtain rfl : M1 = fun i => fin (m1 i) := funext e3
  obtain rfl : M2 = fun i => fin (m2 i) := funext e6
  simp only [if_neg hcp, List.map_map, Function.comp_def, F.div_fin (hm _).ne']
  by_cases h : "mass_2" ∈ ps <;> simp [h]

theorem fullRows_true {K : List ℕ} {m1 m2 z pr : ℕ → F} {s1 s2 : ℕ → F × F × F} {P : Prop} [Decidable P] (hP : P) :
    fullRows K m1 m2 z pr s1 s2 P = fullRows K m1 m2 z pr s1 s2 True := by
  unfold fullRows
  rw [if_pos hP, if_pos trivial]

/-- **C103 (O4a, effective spin), partial** (missing: the names, see the `_fails` theorems below, and the spin density, C86).  With `chi_eff`
requested the data set is over exactly the detected injections in file order; `chi_eff` is the mass-weighted spin along the orbital angular
momentum; the prior is the draw density of masses, redshift and spin vectors times the density of the effective spin. -/
theorem C103_o4a_chieff_partial {f : InjFile} (A : O4aFile f) {ps : List String} (hce : "chi_eff" ∈ ps) (hcp : "chi_p" ∉ ps) {ifar snr : ℝ} (hi : ifar ≠ 0)
    (o3 : Bool) (cuts : Option (List (String × ℝ))) {v : ℝ → ℝ → ℝ} (hv : ∀ x q, iso x q = .ok (fin (v x q)))
    {lnp w m1 m2 : ℕ → ℝ} {s1 s2 : ℕ → ℝ × ℝ × ℝ} (hw : ∀ i, w i ≠ 0) (hm : ∀ i, 0 < m1 i) (hm2 : ∀ i, 0 < m2 i)
    (hs1 : ∀ i, normSq (s1 i) ≠ 0) (hs2 : ∀ i, normSq (s2 i) ≠ 0)
    (e1 : ∀ i, A.C.lnp i = fin (lnp i)) (e2 : ∀ i, A.C.w i = fin (w i)) (e3 : ∀ i, A.C.m1 i = fin (m1 i)) (e6 : ∀ i, A.C.m2 i = fin (m2 i))
    (e4 : ∀ i, A.C.s1 i = (fin (s1 i).1, fin (s1 i).2.1, fin (s1 i).2.2))
    (e5 : ∀ i, A.C.s2 i = (fin (s2 i).1, fin (s2 i).2.1, fin (s2 i).2.2)) :
    ∃ r, loadInjections iso joint f ps true o3 ifar snr cuts = .ok r ∧ r.total_generated = A.total ∧ r.analysis_time = A.time / fin 31557600 ∧
      let K := kept A.n (passesO4a A.cols A.C.snr ifar snr)
      r.rows = [("mass_1", K.map fun i => fin (m1 i)),
        (if "mass_2" ∈ ps then ("mass_2", K.map fun i => fin (m2 i)) else ("mass_ratio", K.map fun i => fin (m2 i / m1 i))),
        ("redshift", K.map A.C.z), ("chi_eff", K.map fun i => fin (massWeightedSpin (m1 i) (m2 i) (s1 i) (s2 i))),
        ("prior", K.map fun i => fin (Real.exp (lnp i) / w i * (if "mass_ratio" ∈ ps then m1 i else 1) *
          v (massWeightedSpin (m1 i) (m2 i) (s1 i) (s2 i)) (m2 i / m1 i)))] := by
  have hread := readO4a_rows A hi (snr := snr) ps
  rw [fullRows_true (.inr hce)] at hread
  obtain ⟨mid, h1, h2⟩ := finish_chieff (joint := joint) (K := kept A.n (passesO4a A.cols A.C.snr ifar snr)) (Z := A.C.z)
    hcp hv hm hm2 hs1 hs2 (fun i => priorO4a_fin A.C (hw i) (e1 i) (e2 i) (e3 i) (e4 i) (e5 i) (.inr hce)) e3 e6 e4 e5
  refine ⟨⟨_, A.total, A.time / fin 31557600⟩, ?_, rfl, rfl, rfl⟩
  unfold loadInjections
  simp only [if_true, hread, bind, Except.bind, if_pos hce, h1, h2, pure, Except.pure]

/-- **C103 (O3, effective spin), partial.** -/
theorem C103_o3_chieff_partial {f : InjFile} (A : O3File f) {ps : List String} (hce : "chi_eff" ∈ ps) (hcp : "chi_p" ∉ ps) (ifar snr : ℝ)
    {cuts : Option (List (String × ℝ))} (hc : ∀ p ∈ cuts.getD [], p.1 ∈ A.d.cols.keys)
    {v : ℝ → ℝ → ℝ} (hv : ∀ x q, iso x q = .ok (fin (v x q)))
    {pdf m1 m2 : ℕ → ℝ} {s1 s2 : ℕ → ℝ × ℝ × ℝ} (hm : ∀ i, 0 < m1 i) (hm2 : ∀ i, 0 < m2 i)
    (hs1 : ∀ i, normSq (s1 i) ≠ 0) (hs2 : ∀ i, normSq (s2 i) ≠ 0)
    (e1 : ∀ i, A.C.pdf i = fin (pdf i)) (e3 : ∀ i, A.C.m1 i = fin (m1 i)) (e6 : ∀ i, A.C.m2 i = fin (m2 i))
    (e4 : ∀ i, A.C.s1 i = (fin (s1 i).1, fin (s1 i).2.1, fin (s1 i).2.2))
    (e5 : ∀ i, A.C.s2 i = (fin (s2 i).1, fin (s2 i).2.1, fin (s2 i).2.2)) :
    ∃ r, loadInjections iso joint f ps false true ifar snr cuts = .ok r ∧ r.total_generated = A.total ∧ r.analysis_time = A.time / fin 31557600 ∧
      let K := kept A.d.n (passesO3Cuts A.d A.C.optsnr ifar snr cuts)
      r.rows = [("mass_1", K.map fun i => fin (m1 i)),
        (if "mass_2" ∈ ps then ("mass_2", K.map fun i => fin (m2 i)) else ("mass_ratio", K.map fun i => fin (m2 i / m1 i))),
        ("redshift", K.map A.C.z), ("chi_eff", K.map fun i => fin (massWeightedSpin (m1 i) (m2 i) (s1 i) (s2 i))),
        ("prior", K.map fun i => fin (pdf i * (if "mass_ratio" ∈ ps then m1 i else 1) *
          v (massWeightedSpin (m1 i) (m2 i) (s1 i) (s2 i)) (m2 i / m1 i)))] := by
  have hread := readO3_rows A ifar snr hc ps
  rw [fullRows_true (.inr hce)] at hread
  obtain ⟨mid, h1, h2⟩ := finish_chieff (joint := joint) (K := kept A.d.n (passesO3Cuts A.d A.C.optsnr ifar snr cuts)) (Z := A.C.z)
    hcp hv hm hm2 hs1 hs2 (fun i => priorO3_fin A.C (e1 i) (e3 i) (e4 i) (e5 i) (.inr hce)) e3 e6 e4 e5
  refine ⟨⟨_, A.total, A.time / fin 31557600⟩, ?_, rfl, rfl, rfl⟩
  unfold loadInjections
  simp only [Bool.false_eq_true, if_false, if_true, hread, bind, Except.bind, if_pos hce, h1, h2, pure, Except.pure]

/-- **C103 is false of the names once `chi_eff` is requested:** whatever else is requested, the data set has `mass_1` and `redshift`; it has the
mass ratio exactly when `mass_2` is not requested and `mass_2` exactly when it is; it never has component spins. -/
theorem C103_chieff_names_fails {f : InjFile} (A : O4aFile f) {ps : List String} (hce : "chi_eff" ∈ ps) {ifar snr : ℝ} (hi : ifar ≠ 0)
    (o3 : Bool) (cuts : Option (List (String × ℝ))) {r : InjArray} (h : loadInjections iso joint f ps true o3 ifar snr cuts = .ok r) :
    "mass_1" ∈ r.rows.keys ∧ "redshift" ∈ r.rows.keys ∧ ("mass_ratio" ∈ r.rows.keys ↔ "mass_2" ∉ ps) ∧
      ("mass_2" ∈ r.rows.keys ↔ "mass_2" ∈ ps) ∧ "a_1" ∉ r.rows.keys := by
  have hread := readO4a_rows A hi (snr := snr) ps
  rw [fullRows_true (.inr hce)] at hread
  cases hs : injSamples (fullRows (kept A.n (passesO4a A.cols A.C.snr ifar snr)) A.C.m1 A.C.m2 A.C.z (priorO4a A.C ps) A.C.s1 A.C.s2 True) with
  | error e =>
    unfold loadInjections at h
    simp only [if_true, hread, bind, Except.bind, if_pos hce, convertInjRows, hs] at h
    cases h
  | ok samples =>
    cases hc : convertInj iso joint ps samples with
    | error e =>
      unfold loadInjections at h
      simp only [if_true, hread, bind, Except.bind, if_pos hce, convertInjRows, hs, hc] at h
      cases h
    | ok conv =>
      obtain ⟨mid, h1, h2⟩ := convert_full hs hc
      unfold loadInjections at h
      simp only [if_true, hread, bind, Except.bind, if_pos hce, h1, h2, pure, Except.pure] at h
      rw [← Except.ok.inj h]
      unfold PyDict.keys
      by_cases hm : "mass_2" ∈ ps <;> by_cases hp : "chi_p" ∈ ps <;> simp [hm, hp]

/-- **C103 is false** in particular when both masses' parametrisations are requested: the data set lacks the requested mass ratio. -/
theorem C103_both_masses_fails {f : InjFile} (A : O4aFile f) {ps : List String} (hce : "chi_eff" ∈ ps) (hq : "mass_ratio" ∈ ps) (hm : "mass_2" ∈ ps)
    {ifar snr : ℝ} (hi : ifar ≠ 0) (o3 : Bool) (cuts : Option (List (String × ℝ))) {r : InjArray}
    (h : loadInjections iso joint f ps true o3 ifar snr cuts = .ok r) : ∃ k ∈ ps, k ∉ r.rows.keys :=
  ⟨"mass_ratio", hq, fun hk => (C103_chieff_names_fails A hce hi o3 cuts h).2.2.1.1 hk hm⟩

/-- a small O4a file: two injections, the first detected -/
def demoLoadCols : PyDict (ℕ → F) :=
  [("semianalytic_observed_phase_maximized_snr_net", fun i => if i = 0 then fin 12 else fin 3), ("weights", fun _ => fin 1),
    ("mass1_source", fun _ => fin 30), ("mass2_source", fun _ => fin 20), ("redshift", fun _ => fin (1 / 2)), (lnpdrawName, fun _ => fin (-5)),
    ("spin1x", fun _ => fin 0), ("spin1y", fun _ => fin 0), ("spin1z", fun _ => fin (1 / 2)),
    ("spin2x", fun _ => fin 0), ("spin2y", fun _ => fin 0), ("spin2z", fun _ => fin (1 / 4))]

def demoInjFile : InjFile := ⟨some (2, demoLoadCols), none, [("analysis_time", fin 31557600)], some (fin 100), none⟩

def demoLoadO4a : O4aFile demoInjFile where
  n := 2
  cols := demoLoadCols
  C := { snr := fun i => if i = 0 then fin 12 else fin 3, w := fun _ => fin 1, m1 := fun _ => fin 30, m2 := fun _ => fin 20, z := fun _ => fin (1 / 2),
         lnp := fun _ => fin (-5), s1 := fun _ => (fin 0, fin 0, fin (1 / 2)), s2 := fun _ => (fin 0, fin 0, fin (1 / 4)),
         hsnr := by simp [demoLoadCols, PyDict.get?], hw := by simp [demoLoadCols, PyDict.get?], hm1 := by simp [demoLoadCols, PyDict.get?],
         hm2 := by simp [demoLoadCols, PyDict.get?], hz := by simp [demoLoadCols, PyDict.get?], hlnp := by simp [demoLoadCols, PyDict.get?, lnpdrawName],
         hx1 := by simp [demoLoadCols, PyDict.get?, lnpdrawName], hy1 := by simp [demoLoadCols, PyDict.get?, lnpdrawName],
         hz1 := by simp [demoLoadCols, PyDict.get?, lnpdrawName], hx2 := by simp [demoLoadCols, PyDict.get?, lnpdrawName],
         hy2 := by simp [demoLoadCols, PyDict.get?, lnpdrawName], hz2 := by simp [demoLoadCols, PyDict.get?, lnpdrawName] }
  total := fin 100
  time := fin 31557600
  hev := rfl
  htot := rfl
  htime := by simp [demoInjFile, FileTime, PyDict.get?]

/-- The hypotheses hold of a concrete file: the effective spin of 30 and 20 solar masses with aligned spins 1/2 and 1/4 is 2/5. -/
example (joint : ℝ → ℝ → ℝ → Except PyErr F) : ∃ r, loadInjections (fun _ _ => .ok (fin 1)) joint demoInjFile ["mass_1", "mass_ratio", "redshift", "chi_eff"] true = .ok r ∧
    "chi_eff" ∈ r.rows.keys ∧ massWeightedSpin 30 20 (0, 0, 1 / 2) (0, 0, 1 / 4) = 2 / 5 := by
  obtain ⟨r, h1, _, _, h2⟩ := C103_o4a_chieff_partial (iso := fun _ _ => .ok (fin 1)) (joint := joint) demoLoadO4a (ps := ["mass_1", "mass_ratio", "redshift", "chi_eff"])
    (by decide) (by decide) (ifar := 1) (snr := 10) one_ne_zero true none (v := fun _ _ => 1) (fun _ _ => rfl)
    (lnp := fun _ => -5) (w := fun _ => 1) (m1 := fun _ => 30) (m2 := fun _ => 20) (s1 := fun _ => (0, 0, 1 / 2)) (s2 := fun _ => (0, 0, 1 / 4))
    (by norm_num) (by norm_num) (by norm_num) (by norm_num [normSq]) (by norm_num [normSq]) (fun _ => rfl) (fun _ => rfl) (fun _ => rfl) (fun _ => rfl)
    (fun _ => rfl) (fun _ => rfl)
  refine ⟨r, h1, ?_, by norm_num [massWeightedSpin]⟩
  rw [h2]
  simp [PyDict.keys]

example : Available ["mass_1", "mass_ratio", "redshift", "a_1", "a_2"] := by
  intro k hk
  simp only [List.mem_cons, List.not_mem_nil, or_false] at hk
  rcases hk with rfl | rfl | rfl | rfl | rfl <;> simp

end GW
end
