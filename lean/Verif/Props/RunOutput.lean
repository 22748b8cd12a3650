import Verif.Model.RunOutput
import Verif.Props.Parser
import Verif.Props.RunFiles

/-! # Property C120: what gwinferno_run_from_config saves -/

noncomputable section
open Classical
namespace GW
open F

theorem dropWhile_tail : ∀ l m : List Char, '/' ∉ l → (l ++ '/' :: m).dropWhile (fun c => decide (c ≠ '/')) = '/' :: m
  | [], m, _ => by simp
  | c :: l, m, h => by
    simp only [List.mem_cons, not_or] at h
    rw [List.cons_append, List.dropWhile_cons_of_pos (by simpa using fun e => h.1 e.symm)]
    exact dropWhile_tail l m h.2

theorem dirPart_eq (outdir lab e : String) (hl : '/' ∉ lab.toList) (he : '/' ∉ e.toList) :
    String.ofList (dirPart (outdir ++ "/" ++ lab ++ e).toList) = outdir ++ "/" := by
  have h : (outdir ++ "/" ++ lab ++ e).toList.reverse = (lab.toList ++ e.toList).reverse ++ '/' :: outdir.toList.reverse := by
    simp [String.toList_append]
  have h2 : '/' ∉ (lab.toList ++ e.toList).reverse := by simp [hl, he]
  rw [dirPart, h, dropWhile_tail _ _ h2]
  apply String.toList_injective
  simp [String.toList_append]

theorem save_ok {d : Disk} {lab outdir e : String} (o : OutFile) (hl : '/' ∉ lab.toList) (he : '/' ∉ e.toList) (hd : d.dir (outdir ++ "/")) :
    d.save (outdir ++ "/" ++ lab ++ e) o = .ok ⟨d.dir, d.files.set (outdir ++ "/" ++ lab ++ e) o⟩ := by
  unfold Disk.save
  rw [if_pos (by rw [dirPart_eq outdir lab e hl he]; exact hd)]

theorem finish_ok {d : Disk} {sites : List Site} {sp : List String} {lab outdir : String} (hl : '/' ∉ lab.toList) (hd : d.dir (outdir ++ "/"))
    (hv : ∀ v ∈ summaryVars sp, v ∈ recorded sites) :
    finishRun d sites sp lab outdir =
      ((⟨d.dir, (d.files.set (outdir ++ "/" ++ lab ++ "_trace.png") (.trace (summaryVars sp))).set
          (outdir ++ "/" ++ lab ++ "_posterior_samples.h5") (.samples (recorded sites))⟩ : Disk), .ok ()) := by
  unfold finishRun plotTraceDump
  have h0 : (summaryVars sp).find? (fun v => decide (v ∉ recorded sites)) = none := by
    rw [List.find?_eq_none]
    intro v h
    simp [hv v h]
  rw [h0]
  simp only
  rw [traceFile, save_ok _ hl (by decide) hd]
  simp only
  rw [samplesFile, save_ok _ hl (by decide) (by exact hd)]

theorem recorded_append (a b : List Site) : recorded (a ++ b) = recorded a ++ recorded b := by simp [recorded]

/-- a completed evaluation of the likelihood with rate reconstruction stores the four summarised quantities -/
theorem likelihood_records {E N M : ℕ} (fl : Flags) (pe : PEWeights E N) (inj : Fin M → F) (total_inj Nobs : ℕ) (Tobs : F) (hv : Option F)
    (unscaled : F) (ppc : Option (PPC E N M)) (hr : fl.reconstruct_rate = true)
    (h : ∃ x, (hierarchical_likelihood fl pe inj total_inj Nobs Tobs hv unscaled ppc).2 = .ok x) :
    ∀ v ∈ ["rate", "log_nEffs", "log_nEff_inj", "log_l"], v ∈ recorded (hierarchical_likelihood fl pe inj total_inj Nobs Tobs hv unscaled ppc).1 := by
  unfold hierarchical_likelihood at h ⊢
  split at h
  · simp at h
  · rename_i hf
    rw [if_neg hf]
    cases hv with
    | none => simp [ratePart, hr] at h
    | some hv =>
      simp only [ratePart, hr, if_true]
      intro v hv'
      cases ppc with
      | none => simp only [recorded_append]; fin_cases hv' <;> simp [recorded]
      | some p => simp only [recorded_append]; fin_cases hv' <;> simp [recorded]

/-- a completed call of the constructed model function stores every sampled hyper-parameter and the four summarised quantities -/
theorem modelCall_records {V : Type} {E N M : ℕ} (cf : ConstructFlags) (model_dict : PyDict (Spec V)) (prior_dict : PyDict (Prior V)) (zgrid : V)
    (pop : PyDict (Option Dist)) (env : CallEnv V E N M) (h : (modelCall cf model_dict prior_dict zgrid pop env).2.2 = .ok ()) :
    (∀ k dist ps, prior_dict.get? k = some (.prior dist ps) → k ∈ recorded (modelCall cf model_dict prior_dict zgrid pop env).2.1) ∧
    (∀ v ∈ ["rate", "log_nEffs", "log_nEff_inj", "log_l"], v ∈ recorded (modelCall cf model_dict prior_dict zgrid pop env).2.1) := by
  unfold modelCall at h ⊢
  simp only at h ⊢
  split at h
  · simp at h
  · rename_i he
    constructor
    · intro k dist ps hk
      rw [recorded_append]
      refine List.mem_append_left _ ?_
      simp only [recorded, priorSites, List.mem_filterMap]
      exact ⟨.sample k, ⟨(k, .prior dist ps), PyDict.mem_of_get? hk, rfl⟩, rfl⟩
    · intro v hv
      rw [recorded_append]
      refine List.mem_append_right _ ?_
      unfold evalModel at h ⊢
      split at h
      · simp at h
      · split at h
        · simp at h
        · split at h
          · simp at h
          · simp at h
          · split at h
            · simp at h
            · simp only [runLikelihood] at h ⊢
              refine likelihood_records _ _ _ _ _ _ _ _ _ rfl ?_ v hv
              revert h
              generalize (hierarchical_likelihood _ _ _ _ _ _ _ _ _).2 = q
              intro h
              cases q with
              | error e => simp [Except.map] at h
              | ok x => exact ⟨x, rfl⟩

variable {V : Type}

/-- **C120, partial** (missing: new output directories, colliding names and models without a rate, see the `_fails` theorems).  For a configuration with
distinct flat names that describes its models (no Python file), a label without slashes and an output directory that exists: once the model has
run, the command finishes, the sample file holds everything the run stored, the trace plot shows every sampled hyper-parameter, the rate, both
effective sample sizes and the likelihood, and every other file is as before. -/
theorem C120_saved_partial {E N M : ℕ} (im : Imports V) (conf : PyDict (Entry V)) (r : Reader V) (hp : parseModels im conf {} = .ok r)
    (hn : ((flatAll im conf).map Prod.fst).Nodup) (cf : ConstructFlags) (zgrid : V) (pop : PyDict (Option Dist)) (env : CallEnv V E N M)
    (hrun : (modelCall cf r.models r.priors zgrid pop env).2.2 = .ok ()) (d : Disk) (lab outdir : String) (hl : '/' ∉ lab.toList)
    (hd : d.dir (outdir ++ "/")) :
    ∃ d', finishRun d (modelCall cf r.models r.priors zgrid pop env).2.1 r.sampling_params lab outdir = (d', .ok ()) ∧
      d'.files.get? (outdir ++ "/" ++ lab ++ "_posterior_samples.h5") = some (.samples (recorded (modelCall cf r.models r.priors zgrid pop env).2.1)) ∧
      d'.files.get? (outdir ++ "/" ++ lab ++ "_trace.png") = some (.trace (r.sampling_params ++ ["rate", "log_nEffs", "log_nEff_inj", "log_l"])) ∧
      (∀ v ∈ r.sampling_params ++ ["rate", "log_nEffs", "log_nEff_inj", "log_l"], v ∈ recorded (modelCall cf r.models r.priors zgrid pop env).2.1) ∧
      ∀ f, f ≠ outdir ++ "/" ++ lab ++ "_posterior_samples.h5" → f ≠ outdir ++ "/" ++ lab ++ "_trace.png" → d'.files.get? f = d.files.get? f := by
  obtain ⟨h1, h2⟩ := modelCall_records cf r.models r.priors zgrid pop env hrun
  obtain ⟨f1, -, f3⟩ := C70_flatten_partial im conf r hp hn
  have hv : ∀ v ∈ summaryVars r.sampling_params, v ∈ recorded (modelCall cf r.models r.priors zgrid pop env).2.1 := by
    intro v hv
    rcases List.mem_append.1 hv with hv | hv
    · rw [f3, List.mem_filterMap] at hv
      obtain ⟨⟨k, h⟩, hm, hk⟩ := hv
      cases ha : h.asks with
      | none => simp [ha] at hk
      | some p =>
        cases p with
        | fixed x => simp [ha] at hk
        | prior dist ps =>
          simp only [ha, Option.some.injEq] at hk
          subst hk
          exact h1 k dist ps (by rw [f1 k h hm, ha])
    · exact h2 v hv
  have hne : outdir ++ "/" ++ lab ++ "_trace.png" ≠ outdir ++ "/" ++ lab ++ "_posterior_samples.h5" := by
    intro h
    have := congrArg String.toList h
    simp only [String.toList_append, List.append_cancel_left_eq] at this
    revert this
    decide
  refine ⟨_, finish_ok hl hd hv, PyDict.get?_set_self _ _ _, ?_, hv, fun f g1 g2 => ?_⟩
  · simp only
    rw [PyDict.get?_set_ne _ _ hne, PyDict.get?_set_self]
    rfl
  · simp only
    rw [PyDict.get?_set_ne _ _ g1, PyDict.get?_set_ne _ _ g2]

/-- Two runs keep their files apart: if output directory or label differ (labels without slashes), no file of the one is a file of the other. -/
theorem C120_distinct (o1 l1 o2 l2 : String) (h1 : '/' ∉ l1.toList) (h2 : '/' ∉ l2.toList) (hne : o1 ≠ o2 ∨ l1 ≠ l2) :
    traceFile (o1 ++ "/" ++ l1) ≠ traceFile (o2 ++ "/" ++ l2) ∧ samplesFile (o1 ++ "/" ++ l1) ≠ samplesFile (o2 ++ "/" ++ l2) ∧
    traceFile (o1 ++ "/" ++ l1) ≠ samplesFile (o2 ++ "/" ++ l2) := by
  have key : ∀ e : String, '/' ∉ e.toList → o1 ++ "/" ++ l1 ++ e ≠ o2 ++ "/" ++ l2 ++ e := by
    intro e he h
    have h' := congrArg String.toList h
    have q : ∀ o l : String, (o ++ "/" ++ l ++ e).toList = o.toList ++ '/' :: (l.toList ++ e.toList) := fun o l => by simp [String.toList_append]
    rw [q, q] at h'
    obtain ⟨a, b⟩ := cut_last (by simp [h1, he]) (by simp [h2, he]) h'
    have b' := List.append_cancel_right b
    rcases hne with hh | hh
    · exact hh (String.toList_injective a)
    · exact hh (String.toList_injective b')
  refine ⟨key _ (by decide), key _ (by decide), fun h => ?_⟩
  have h' := congrArg (fun s => s.toList.reverse.head?) h
  simp [traceFile, samplesFile, String.toList_append] at h'

/-- **C120 fails** for an output directory that does not exist yet: nothing creates it, so after the sampling the command raises and nothing is saved,
whatever the model stored. -/
theorem C120_new_directory_fails (d : Disk) (sites : List Site) (sp : List String) (lab outdir : String) (hl : '/' ∉ lab.toList)
    (hd : ¬ d.dir (outdir ++ "/")) : ∃ e, finishRun d sites sp lab outdir = (d, .error e) := by
  unfold finishRun plotTraceDump
  split
  · exact ⟨_, rfl⟩
  · have : Disk.save d (traceFile (outdir ++ "/" ++ lab)) (.trace (summaryVars sp)) = .error .exception := by
      rw [Disk.save, traceFile, dirPart_eq outdir lab "_trace.png" hl (by decide), if_neg hd]
    rw [this]
    exact ⟨_, rfl⟩

/-- a summarised name the run did not store: the plot comes first, so the samples are not saved either -/
theorem unrecorded_fails (d : Disk) (sites : List Site) (sp : List String) (lab outdir v : String) (hv : v ∈ summaryVars sp)
    (hn : v ∉ recorded sites) : ∃ k, finishRun d sites sp lab outdir = (d, .error (.keyError k)) := by
  unfold finishRun plotTraceDump
  cases h : (summaryVars sp).find? (fun v => decide (v ∉ recorded sites)) with
  | some k => exact ⟨k, rfl⟩
  | none => exact absurd hn (by simpa using List.find?_eq_none.1 h v hv)

/-- **C120 fails** for models without a rate: a model that calls the likelihood with `reconstruct_rate=False` and stores no quantity called "rate"
itself loses its samples, whatever the weights and the other flags.  Models of a configuration always reconstruct the rate, so this concerns
models given as a Python file, which today stop even earlier (`C98_python_file_fails`). -/
theorem C120_no_rate_fails {E N M : ℕ} (fl : Flags) (pe : PEWeights E N) (inj : Fin M → F) (total_inj Nobs : ℕ) (Tobs : F) (hv : Option F)
    (unscaled : F) (hr : fl.reconstruct_rate = false) (own : List Site) (ho : "rate" ∉ recorded own) (d : Disk) (sp : List String) (lab outdir : String) :
    ∃ k, finishRun d (own ++ (hierarchical_likelihood fl pe inj total_inj Nobs Tobs hv unscaled none).1) sp lab outdir = (d, .error (.keyError k)) := by
  refine unrecorded_fails d _ sp lab outdir "rate" (by simp [summaryVars]) ?_
  rw [recorded_append, List.mem_append, not_or]
  refine ⟨ho, ?_⟩
  unfold hierarchical_likelihood
  split
  · simp [recorded]
  · simp only [ratePart, hr, Bool.false_eq_true, if_false]
    cases pe <;> cases fl.min_neff_cut <;> cases fl.max_variance_cut <;> simp [recorded, PEWeights.sites]

/-- the names a likelihood without predictive check stores by itself -/
def likelihoodNames : List String :=
  ["log_nEff_inj", "log_nEffs", "logBFs", "detection_efficiency", "variance_log_BFs", "variance_log_detection_efficiency", "surveyed_hypervolume",
   "unscaled_rate", "rate", "selection_factor", "sum_logBFs", "log_l", "neff_less_Nobs", "variance_log_likelihood", "variance_less_1"]

theorem evalModel_names {E N M : ℕ} (cf : ConstructFlags) (hc : cf.posterior_predictive_check = false) (names : List String)
    (pop : PyDict (Option Dist)) (env : CallEnv V E N M) : ∀ v ∈ recorded (evalModel cf names pop env).1, v ∈ likelihoodNames := by
  unfold evalModel
  split
  · simp [recorded]
  · split
    · simp [recorded]
    · split
      · simp [recorded]
      · simp [recorded]
      · split
        · simp [recorded]
        · simp only [runLikelihood, hc, Bool.false_eq_true, if_false, hierarchical_likelihood]
          split
          · simp [recorded]
          · simp only [ratePart, if_true, recorded_append]
            intro v hv
            rcases cf with ⟨c1, c2, c3, c4⟩
            cases c2 <;> cases c3 <;> simp [recorded, PEWeights.sites] at hv <;> simp [likelihoodNames] <;> tauto

/-- **C120 fails** for colliding flat names: section `a` samples `b_c` and section `a_b` fixes `c`.  The configuration is read without error, the
sampled value is replaced by the fixed one but stays in the list of sampled names, and the command raises before anything is saved, whatever
the data and the draws (no predictive check, and a name the likelihood does not use itself). -/
theorem C120_collision_fails {E N M : ℕ} (im : Imports V) (a b c : String) (h1 h2 : HP V) (m : String) (cls : Cls V) (d1 : String)
    (ps1 : PyDict V) (x : V) (hm : ¬ isMixture m) (hc : im.cls m = some cls) (e1 : h1.prior = some d1) (e1' : h1.prior_params = some ps1)
    (e2 : h2.prior = none) (e2' : h2.value = some x) (i1 : im.prior d1 = true) (hk : a ++ "_" ++ (b ++ "_" ++ c) ∉ likelihoodNames) :
    ∃ r, parseModels im [(a, { model := some m, hyper_params := some [(b ++ "_" ++ c, h1)] }),
        (a ++ "_" ++ b, { model := some m, hyper_params := some [(c, h2)] })] {} = .ok r ∧
      ∀ (cf : ConstructFlags) (zgrid : V) (pop : PyDict (Option Dist)) (env : CallEnv V E N M) (d : Disk) (lab outdir : String),
        cf.posterior_predictive_check = false →
        ∃ k, finishRun d (modelCall cf r.models r.priors zgrid pop env).2.1 r.sampling_params lab outdir = (d, .error (.keyError k)) := by
  have hkey : a ++ "_" ++ b ++ "_" ++ c = a ++ "_" ++ (b ++ "_" ++ c) := by simp only [String.append_assoc]
  refine ⟨_, by
    simp [parseModels, addEntry, hm, addModel, need, load, hc, addPriors, addPrior, e1, e1', e2, e2', i1, addIid,
      bind, Except.bind, PyDict.keys]; rfl, ?_⟩
  intro cf zgrid pop env d lab outdir hcf
  refine unrecorded_fails d _ _ lab outdir (a ++ "_" ++ (b ++ "_" ++ c)) (by simp [summaryVars]) ?_
  have hp : ∀ md : PyDict (Spec V), a ++ "_" ++ (b ++ "_" ++ c) ∉
      recorded (modelCall cf md [(a ++ "_" ++ (b ++ "_" ++ c), Prior.fixed x)] zgrid pop env).2.1 := by
    intro md
    unfold modelCall
    simp only
    split
    · simp [priorSites, recorded]
    · simp only [priorSites, List.filterMap_cons, List.filterMap_nil, List.nil_append]
      exact fun h => hk (evalModel_names cf hcf _ _ env _ h)
  have := hp
  simp only [hkey, PyDict.set, if_true]
  exact hp _

/-! ### The hypotheses are met -/

/-- a configuration whose model runs: a redshift model with one sampled and one fixed hyper-parameter -/
example : ∃ (im : Imports ℝ) (conf : PyDict (Entry ℝ)) (r : Reader ℝ) (env : CallEnv ℝ 1 1 1), parseModels im conf {} = .ok r ∧
    ((flatAll im conf).map Prod.fst).Nodup ∧ r.sampling_params = ["redshift_lamb"] ∧
    (modelCall { posterior_predictive_check := false } r.models r.priors 0 [("redshift", none)] env).2.2 = .ok () := by
  let D : Dist := ⟨fun _ => fin 0, some (fin 1)⟩
  let C : Cls ℝ := ⟨["lamb", "maximum", "grid"], ["lamb", "maximum"], fun _ => D⟩
  refine ⟨⟨fun _ => some C, fun _ => none, fun _ => true, fun _ => 0⟩,
    [("redshift", { model := some "Z", hyper_params := some [("lamb", { prior := some "Normal", prior_params := some [] }), ("maximum", { value := some 2 })] })],
    ⟨[("redshift", .pop C ["lamb", "maximum"])], [("redshift_lamb", .prior "Normal" []), ("redshift_maximum", .fixed 2)], ["redshift_lamb"]⟩,
    ⟨fun _ => some fun _ _ => fin 1, fun _ => some fun _ => fin 1, 10, 1, fin 1, fun _ => 0, fin 1, fun _ => 0⟩, ?_, ?_, rfl, ?_⟩
  · have hm : ¬ isMixture "Z" := by unfold isMixture; decide
    simp [parseModels, addEntry, hm, addModel, need, load, addPriors, addPrior, addIid, bind, Except.bind, PyDict.keys, PyDict.set]
  · show List.Nodup ((List.flatMap _ _).map Prod.fst)
    rw [List.flatMap_cons, List.flatMap_nil, List.append_nil, show Entry.flat _ _ _ = _ from if_neg (by decide)]
    simp
  · obtain ⟨q, hq, h⟩ := C51_run_partial (V := ℝ) (E := 1) (N := 1) (M := 1) { posterior_predictive_check := false }
      [("redshift", .pop C ["lamb", "maximum"])] [("redshift_lamb", .prior "Normal" []), ("redshift_maximum", .fixed 2)] 0 [("redshift", none)]
      ⟨fun _ => some fun _ _ => fin 1, fun _ => some fun _ => fin 1, 10, 1, fin 1, fun _ => 0, fin 1, fun _ => 0⟩ (fun _ => D)
      (by
        intro k s hk
        simp only [List.mem_singleton, Prod.mk.injEq] at hk
        obtain ⟨rfl, rfl⟩ := hk
        refine Evaluates.redshift C ["lamb", "maximum"] (fun p => if p = "lamb" then 0 else 2) rfl (by decide) ⟨by simp [C], by simp [C]⟩ ?_
        intro p hp
        simp only [List.mem_cons, List.not_mem_nil, or_false] at hp
        rcases hp with rfl | rfl
        · exact Or.inl ⟨"Normal", [], by simp [PyDict.get?], by simp⟩
        · exact Or.inr (by simp [PyDict.get?]))
      (by simp [PyDict.keys]) (fin 1) rfl (fun _ _ _ => fin 1) (fun _ _ => fin 1) (fun _ _ => fin 1) (fun _ => fin 1)
      (fun _ _ => rfl) rfl (fun _ _ => rfl) rfl
    rw [h]
    rw [hq]
    simp [hierarchical_likelihood, ratePart, Except.map]

/-- the files of one run, spelled out -/
example (d : Disk) (sites : List Site) (hd : d.dir "out/") (hv : ∀ v ∈ summaryVars ["mass_1_alpha"], v ∈ recorded sites) :
    ∃ d', finishRun d sites ["mass_1_alpha"] "run" "out" = (d', .ok ()) ∧
      d'.files.get? "out/run_posterior_samples.h5" = some (.samples (recorded sites)) :=
  ⟨_, finish_ok (d := d) (sites := sites) (lab := "run") (outdir := "out") (by decide) hd hv, PyDict.get?_set_self _ _ _⟩

/-- a name outside the likelihood's own -/
example : "mass" ++ "_" ++ ("1" ++ "_" ++ "alpha") ∉ likelihoodNames := by decide

end GW
end
