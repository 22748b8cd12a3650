import Verif.Model.Config
import Verif.Props.Parser

/-! # C109: reading a configuration file and starting the run it describes -/

noncomputable section
open Classical
namespace GW
variable {V : Type}

/-- **C109 (file to attributes).** A fresh reader that has read a file holds what the file says: label, output directory and the three
option sections are the file's or the documented defaults, the models and priors are those of the "models" section, which is required, and a
"python_file" replaces all of them. -/
theorem C109_parse (im : Imports V) (y : Yaml V) {s : ConfigState V} (h : ConfigState.parse im y {} = (s, .ok ())) :
    s.label = some (y.label.getD "label") ∧ s.outdir = some (y.outdir.getD "./") ∧ s.data_conf = some (y.data.getD {}) ∧
    s.sampler_conf = some (y.sampler.getD {}) ∧ s.likelihood_kwargs = some (y.likelihood.getD []) ∧
    ∃ m, y.models = some m ∧ s.file_path = m.python_file ∧
      if m.python_file.isSome then s.toReader = {} else parseModels im m.params {} = .ok s.toReader := by
  unfold ConfigState.parse at h
  cases hm : y.models with
  | none => rw [hm] at h; simp at h
  | some m =>
    rw [hm] at h
    simp only [constructDicts] at h
    cases hp : m.python_file with
    | some p =>
      rw [hp] at h
      simp only [Prod.mk.injEq, and_true] at h
      subst h
      exact ⟨rfl, rfl, rfl, rfl, rfl, m, rfl, hp.symm, by simp [hp]⟩
    | none =>
      rw [hp] at h
      simp only at h
      cases hr : parseModels im m.params {} with
      | error e => rw [hr] at h; simp at h
      | ok r =>
        rw [hr] at h
        simp only [Prod.mk.injEq, and_true] at h
        subst h
        exact ⟨rfl, rfl, rfl, rfl, rfl, m, rfl, hp.symm, by simp [hp, hr]⟩

/-- **C109 (missing section).** A file without "models" is refused with `KeyError`, whatever else it contains and whatever the reader
read before. -/
theorem C109_models_required (im : Imports V) (y : Yaml V) (s : ConfigState V) (h : y.models = none) :
    (ConfigState.parse im y s).2 = .error (.keyError "models") := by
  unfold ConfigState.parse
  rw [h]

/-- the parameter that section `e` declares as sharing its model, if any -/
theorem parse_keeps {im : Imports V} {conf : PyDict (Entry V)} {r r' : Reader V} (he : parseModels im conf r = .ok r') {k : String}
    (hk : k ∉ conf.keys) (hi : ∀ p e, (p, e) ∈ conf → e.iidOf im ≠ some (some k)) : r'.models.get? k = r.models.get? k := by
  induction conf generalizing r with
  | nil => simp only [parseModels, Except.ok.injEq] at he; subst he; rfl
  | cons pe l ih =>
    obtain ⟨p, e⟩ := pe
    simp only [PyDict.keys, List.map_cons, List.mem_cons, not_or] at hk
    simp only [parseModels] at he
    cases h1 : addEntry im r (p, e) with
    | error er => rw [h1] at he; simp at he
    | ok r1 =>
      rw [h1] at he
      rw [ih he hk.2 fun p e hpe => hi p e (List.mem_cons_of_mem _ hpe)]
      obtain ⟨-, sp, -, ⟨-, hm⟩ | ⟨t, ht, hm⟩⟩ := addEntry_reads h1
      · rw [hm, PyDict.get?_set_ne _ _ hk.1]
      · have : k ≠ t := fun e' => hi p e (by simp) (by rw [ht, e'])
        rw [hm, PyDict.get?_set_ne _ _ this, PyDict.get?_set_ne _ _ hk.1]

/-- **C109 is false of a reader used twice.** After reading a second file into a reader in state `s1` (left by a first file), every model of the first file that the second neither describes
nor shares is still there, every prior of the first that the second does not name is still there, and the sampled parameters of the first
file come before those of the second. -/
theorem C109_reuse_fails (im : Imports V) (y2 : Yaml V) {s1 s2 : ConfigState V} {m2 : ModelsConf V}
    (h2 : ConfigState.parse im y2 s1 = (s2, .ok ())) (hm2 : y2.models = some m2)
    (hp2 : m2.python_file = none) :
    (∀ k sp, s1.models.get? k = some sp → k ∉ m2.params.keys → (∀ p e, (p, e) ∈ m2.params → e.iidOf im ≠ some (some k)) → s2.models.get? k = some sp) ∧
    (∀ k pr, s1.priors.get? k = some pr → k ∉ (flatAll im m2.params).map Prod.fst → s2.priors.get? k = some pr) ∧
    (∃ l, s2.sampling_params = s1.sampling_params ++ l) ∧ s2.file_path = s1.file_path := by
  unfold ConfigState.parse at h2
  rw [hm2] at h2
  simp only [constructDicts, hp2] at h2
  cases hr : parseModels im m2.params s1.toReader with
  | error e => rw [hr] at h2; simp at h2
  | ok r =>
    rw [hr] at h2
    simp only [Prod.mk.injEq, and_true] at h2
    subst h2
    obtain ⟨hd, hs⟩ := parse_reads hr
    refine ⟨fun k sp hk hn hi => ?_, fun k pr hk hn => ?_, ⟨_, hs⟩, rfl⟩
    · exact (parse_keeps hr hn hi).trans hk
    · change r.priors.get? k = _
      rw [hd, foldHP_not_mem _ k hn, hk]

variable {Data : Type} (im : Imports V) (loadModel : String → Except PyErr Unit)
  (build : PyDict (Spec V) → PyDict (Prior V) → PyDict V → Except PyErr Unit) (setup : String → DataConf V → List String → Except PyErr Data)

theorem run_inv {y : Yaml V} {r : RunPlan V Data} (h : runInference im loadModel build setup y = .ok r) :
    ∃ s cat d k, ConfigState.parse im y {} = (s, .ok ()) ∧ (y.data.getD {}).catalog_summary_json = some cat ∧
      (match s.file_path with | some f => loadModel f | none => build s.models s.priors (y.likelihood.getD [])) = .ok () ∧
      setup cat (y.data.getD {}) (match s.file_path with | some _ => ["file_path"] | none => s.models.keys) = .ok d ∧
      samplerOf (y.sampler.getD {}) = .ok k ∧
      r = ⟨k.1, k.2.1, k.2.2, d, s.sampling_params, y.label.getD "label", y.outdir.getD "./"⟩ := by
  unfold runInference at h
  cases hp : ConfigState.parse im y {} with
  | mk s o =>
    rw [hp] at h
    cases o with
    | error e => simp [bind, Except.bind] at h
    | ok u =>
      obtain ⟨e1, e2, e3, e4, e5, -⟩ := C109_parse im y hp
      simp only [bind, Except.bind, e1, e2, e3, e4, e5] at h
      split at h
      · cases h
      rename_i hb
      split at h
      · cases h
      rename_i cat hcat
      split at h
      · cases h
      rename_i d hd
      split at h
      · cases h
      rename_i k hk
      cases h
      refine ⟨s, cat, d, k, rfl, ?_, hb, hd, hk, rfl⟩
      unfold need at hcat
      split at hcat
      · rename_i v hv
        cases hcat
        exact hv
      · cases hcat

theorem samplerOf_ok {c : SamplerConf V} {k : String × PyDict V × PyDict V} (h : samplerOf c = .ok k) :
    (k.1 = "NUTS" ∨ k.1 = "HMC") ∧ c.kernel = some k.1 ∧ c.kernel_kwargs = some k.2.1 ∧ c.mcmc_kwargs = some k.2.2 := by
  unfold samplerOf at h
  cases hk : c.kernel with
  | none => rw [hk] at h; simp [need, bind, Except.bind] at h
  | some n =>
    rw [hk] at h
    simp only [need, bind, Except.bind] at h
    by_cases hn : n ∈ kernelMap
    · rw [if_pos hn] at h
      cases h1 : c.kernel_kwargs with
      | none => rw [h1] at h; simp at h
      | some a =>
        cases h2 : c.mcmc_kwargs with
        | none => rw [h1, h2] at h; simp at h
        | some b =>
          rw [h1, h2] at h
          simp only [Except.ok.injEq] at h
          subst h
          exact ⟨by simpa [kernelMap] using hn, rfl, rfl, rfl⟩
    · rw [if_neg hn] at h
      cases h

/-- **C109 (the run).** A run that reaches the sampler uses the kernel, the kernel options and the sampler options of the file, the kernel is
NUTS or HMC, the data are those of the catalog named in the file, loaded for exactly the configured parameters, and the label, the output
directory and the list of sampled parameters are the file's.  Partial; missing: readers used for a second file, files without the optional sections: `C109_reuse_fails`, `C109_defaults_fails`. -/
theorem C109_run_partial {y : Yaml V} {r : RunPlan V Data} (h : runInference im loadModel build setup y = .ok r) :
    ∃ sc dc m, y.sampler = some sc ∧ y.data = some dc ∧ y.models = some m ∧
      (r.kernel = "NUTS" ∨ r.kernel = "HMC") ∧ sc.kernel = some r.kernel ∧ sc.kernel_kwargs = some r.kernel_kwargs ∧
      sc.mcmc_kwargs = some r.mcmc_kwargs ∧ r.label = y.label.getD "label" ∧ r.outdir = y.outdir.getD "./" ∧
      (m.python_file = none → ∃ rd, parseModels im m.params {} = .ok rd ∧ r.sampling_params = rd.sampling_params ∧
        ∃ cat, dc.catalog_summary_json = some cat ∧ setup cat dc rd.models.keys = .ok r.data) := by
  obtain ⟨s, cat, d, k, hp, hcat, -, hd, hk, rfl⟩ := run_inv im loadModel build setup h
  obtain ⟨-, -, -, -, -, m, hm, hf, hr⟩ := C109_parse im y hp
  obtain ⟨a1, a2, a3, a4⟩ := samplerOf_ok hk
  cases hs : y.sampler with
  | none => rw [hs] at a2; cases a2
  | some sc =>
    cases hdc : y.data with
    | none => rw [hdc] at hcat; cases hcat
    | some dc =>
      rw [hs] at a2 a3 a4
      rw [hdc] at hcat hd
      refine ⟨sc, dc, m, rfl, rfl, hm, a1, a2, a3, a4, rfl, rfl, fun hn => ?_⟩
      rw [hn] at hr hf
      simp only [Option.isSome_none, Bool.false_eq_true, if_false] at hr
      rw [hf] at hd
      exact ⟨s.toReader, hr, rfl, cat, hcat, hd⟩

/-- **C109 is false for the defaults of the "data" and "sampler" sections.** Files without one of them are read without complaint, with an
empty section as the default, but no run can be made from them, whatever the models and the data. -/
theorem C109_defaults_fails (y : Yaml V) (h : y.data = none ∨ y.sampler = none) :
    ∃ e, runInference im loadModel build setup y = .error e := by
  cases hr : runInference im loadModel build setup y with
  | error e => exact ⟨e, rfl⟩
  | ok r =>
    obtain ⟨sc, dc, -, h1, h2, -⟩ := C109_run_partial im loadModel build setup hr
    rcases h with h | h
    · rw [h] at h2; cases h2
    · rw [h] at h1; cases h1

/-- **C109 (command line of the configuration tools).** Every option of `load_base_parser` holds the value given last: numbers for the
numeric options (a text that is not a number is refused), the text itself for the others; options left out hold their defaults. -/
theorem C109_options (pi : String → Option ℤ) (pf : String → Option ℝ) (argv : List (String × String)) (o : Opt) (ho : o ∈ parserOptions) :
    ((∀ t, (o.name, t) ∉ argv) → argOf pi pf argv o = some o.default) ∧
    ∀ pre s post, argv = pre ++ (o.name, s) :: post → (∀ t, (o.name, t) ∉ post) → argOf pi pf argv o =
      if o.name ∈ ["--mmin", "--mmax"] then (pf s).map .flt
      else if o.name ∈ ["--chains", "--samples", "--thinning", "--warmup"] then (pi s).map .int
      else if o.name = "--skip-inference" then some (.bool true) else some (.str s) := by
  have hnil : ∀ l : List (String × String), (∀ t, (o.name, t) ∉ l) → (l.filter fun p => p.1 = o.name) = [] := by
    intro l hl
    rw [List.filter_eq_nil_iff]
    rintro ⟨a, b⟩ hab h
    simp only [decide_eq_true_eq] at h
    exact hl b (h ▸ hab)
  refine ⟨fun h => ?_, fun pre s post hargv hpost => ?_⟩
  · rw [argOf, hnil argv h]
    rfl
  · have hf : argv.filter (fun p => p.1 = o.name) = (pre.filter fun p => p.1 = o.name) ++ [(o.name, s)] := by
      rw [hargv, List.filter_append, List.filter_cons]
      simp [hnil post hpost]
    rw [argOf, hf, List.getLast?_concat]
    simp only [parserOptions, List.mem_cons, List.not_mem_nil, or_false] at ho
    rcases ho with rfl | rfl | rfl | rfl | rfl | rfl | rfl | rfl | rfl | rfl <;> simp [argValue]

/-- **C109, partial** (options not given).  The defaults the base parser falls back to: results go to `results`, masses from 3 to 100, one
chain of 1500 samples after 500 of warm-up, no thinning, and inference is run. -/
theorem C109_defaults_partial (pi : String → Option ℤ) (pf : String → Option ℝ) (argv : List (String × String)) (name : String) (v : ArgVal)
    (h : (name, v) ∈ [("--outdir", ArgVal.str "results"), ("--mmin", .flt 3), ("--mmax", .flt 100), ("--chains", .int 1), ("--samples", .int 1500),
      ("--thinning", .int 1), ("--warmup", .int 500), ("--skip-inference", .bool false)]) (hno : ∀ t, (name, t) ∉ argv) :
    ∃ o ∈ parserOptions, o.name = name ∧ argOf pi pf argv o = some v := by
  have key : ∃ o ∈ parserOptions, o.name = name ∧ o.default = v := by
    simp only [List.mem_cons, Prod.mk.injEq, List.not_mem_nil, or_false] at h
    simp only [parserOptions, List.mem_cons, List.not_mem_nil, or_false, exists_eq_or_imp, exists_eq_left]
    rcases h with ⟨rfl, rfl⟩ | ⟨rfl, rfl⟩ | ⟨rfl, rfl⟩ | ⟨rfl, rfl⟩ | ⟨rfl, rfl⟩ | ⟨rfl, rfl⟩ | ⟨rfl, rfl⟩ | ⟨rfl, rfl⟩ <;> norm_num
  obtain ⟨o, ho, hn, hv⟩ := key
  exact ⟨o, ho, hn, hv ▸ (C109_options pi pf argv o ho).1 (hn ▸ hno)⟩

/-- only the number of chains is given: the number of samples is 1500 -/
example (pi : String → Option ℤ) (pf : String → Option ℝ) : ∃ o ∈ parserOptions, o.name = "--samples" ∧
    argOf pi pf [("--chains", "4")] o = some (.int 1500) := C109_defaults_partial pi pf _ _ _ (by simp) (by simp)

/-- a class accepting anything, for the examples -/
def anyImports (c : Cls V) : Imports V := { cls := fun _ => some c, mix := fun _ => none, prior := fun _ => true, len := fun _ => 0 }

/-- a file with one model, read into a fresh reader; then a second one into the same reader: `mass_1` is still there -/
example (c : Cls ℕ) : ∃ s1 s2 : ConfigState ℕ,
    ConfigState.parse (anyImports c) { models := some { params := [("mass_1", { model := some "A", hyper_params := some [] })] } } {} = (s1, .ok ()) ∧
    ConfigState.parse (anyImports c) { label := some "two", models := some { params := [("redshift", { model := some "B", hyper_params := some [] })] } } s1 = (s2, .ok ()) ∧
    s2.models.keys = ["mass_1", "redshift"] ∧ s2.label = some "two" := by
  have hA : ¬ isMixture "A" := by simp only [isMixture]; decide
  have hB : ¬ isMixture "B" := by simp only [isMixture]; decide
  have e1 : ConfigState.parse (anyImports c) { models := some { params := [("mass_1", { model := some "A", hyper_params := some [] })] } } {} =
      ({ models := [("mass_1", .pop c [])], label := some "label", outdir := some "./", data_conf := some {}, sampler_conf := some {}, likelihood_kwargs := some [] }, .ok ()) := by
    simp [ConfigState.parse, constructDicts, parseModels, addEntry, hA, addModel, need, load, anyImports, addPriors, addIid, bind, Except.bind, PyDict.set, PyDict.keys]
  refine ⟨_, { models := [("mass_1", .pop c []), ("redshift", .pop c [])], label := some "two", outdir := some "./", data_conf := some {}, sampler_conf := some {}, likelihood_kwargs := some [] },
    e1, ?_, rfl, rfl⟩
  simp [ConfigState.parse, constructDicts, parseModels, addEntry, hB, addModel, need, load, anyImports, addPriors, addIid, bind, Except.bind, PyDict.set, PyDict.keys]

/-- a complete file leads to a run -/
example (c : Cls ℕ) : ∃ r, runInference (Data := List String) (anyImports c) (fun _ => .ok ()) (fun _ _ _ => .ok ()) (fun _ _ ps => .ok ps)
    { data := some { catalog_summary_json := some "cat.json" }, sampler := some { kernel := some "NUTS", kernel_kwargs := some [], mcmc_kwargs := some [] },
      models := some { params := [("mass_1", { model := some "A", hyper_params := some [] })] } } = .ok r ∧ r.data = ["mass_1"] := by
  have hA : ¬ isMixture "A" := by simp only [isMixture]; decide
  refine ⟨⟨"NUTS", [], [], ["mass_1"], [], "label", "./"⟩, ?_, rfl⟩
  simp [runInference, ConfigState.parse, constructDicts, parseModels, addEntry, hA, addModel, need, load, anyImports, addPriors, addIid, bind, Except.bind, PyDict.set,
    PyDict.keys, samplerOf, kernelMap]

end GW
end
