import Verif.Model.SplineKeywords
import Mathlib.Tactic.NormNum
import Mathlib.Tactic.FinCases

/-! # Property C137: keyword arguments of the spline models -/

noncomputable section
open Classical
namespace GW

/-! ### dictionaries -/

theorem kw_get_append {α : Type} (a b : PyDict α) (k : String) : PyDict.get? (a ++ b) k = (PyDict.get? a k).or (PyDict.get? b k) := by
  induction a with
  | nil => simp
  | cons p a ih =>
    obtain ⟨x, v⟩ := p
    by_cases h : x = k <;> simp [PyDict.get?, h, ih]

theorem kw_get_filter {α : Type} (d : PyDict α) (P : String → Prop) [DecidablePred P] (k : String) :
    PyDict.get? (d.filter fun p => decide (P p.1)) k = if P k then PyDict.get? d k else none := by
  induction d with
  | nil => simp
  | cons p d ih =>
    obtain ⟨x, v⟩ := p
    by_cases hP : P x
    · by_cases h : x = k
      · subst h; simp [PyDict.get?, hP]
      · simp [PyDict.get?, hP, h, ih]
    · by_cases h : x = k
      · subst h; simp [hP, ih]
      · simp [PyDict.get?, hP, h, ih]

theorem kw_keys_filter {α : Type} (d : PyDict α) (P : String → Prop) [DecidablePred P] (k : String) :
    k ∈ PyDict.keys (d.filter fun p => decide (P p.1)) ↔ k ∈ PyDict.keys d ∧ P k := by
  simp only [PyDict.keys, List.mem_map, List.mem_filter, decide_eq_true_eq]
  constructor
  · rintro ⟨p, ⟨h1, h2⟩, rfl⟩; exact ⟨⟨p, h1, rfl⟩, h2⟩
  · rintro ⟨⟨p, h1, rfl⟩, h2⟩; exact ⟨p, ⟨h1, h2⟩, rfl⟩

theorem kw_nodup_filter {α : Type} {d : PyDict α} (hd : (PyDict.keys d).Nodup) (P : String × α → Bool) : (PyDict.keys (d.filter P)).Nodup :=
  (List.filter_sublist.map Prod.fst).nodup hd

theorem kw_keys_append {α : Type} (a b : PyDict α) : PyDict.keys (a ++ b) = PyDict.keys a ++ PyDict.keys b := by simp [PyDict.keys]

/-- a keyword or its default -/
def opt (kw : Kw) (k : String) (d : KwVal) : KwVal := (PyDict.get? kw k).getD d

theorem env_opt {pre kw defs : Kw} {k : String} {d : KwVal} (h1 : PyDict.get? pre k = none) (h2 : PyDict.get? defs k = some d) :
    (PyDict.get? (pre ++ kw ++ defs) k).getD .pyNone = opt kw k d := by
  rw [kw_get_append, kw_get_append, h1, h2, opt]
  cases PyDict.get? kw k <;> rfl

theorem bindArgs_ok {params : List (String × Option KwVal)} {varkw : Bool} {pos : List KwVal} {kw : Kw} (h1 : pos.length ≤ params.length)
    (h2 : ∀ k ∈ kw.keys, k ∉ (params.map Prod.fst).take pos.length) (h3 : varkw = true ∨ ∀ k ∈ kw.keys, k ∈ params.map Prod.fst)
    (h4 : ∀ p ∈ params.drop pos.length, p.2 = none → p.1 ∈ kw.keys) :
    bindArgs params varkw pos kw = .ok ⟨fun k => (PyDict.get? ((params.map Prod.fst).zip pos ++ kw ++ params.map fun p => (p.1, p.2.getD .pyNone)) k).getD .pyNone,
      kw.filter fun p => decide (p.1 ∉ params.map Prod.fst)⟩ := by
  unfold bindArgs
  dsimp only
  rw [if_neg (by omega), if_neg (by push Not; exact h2), if_neg ?_, if_neg (by push Not; exact h4)]
  rintro ⟨rfl, k, hk, h⟩
  rcases h3 with h3 | h3
  · simp at h3
  · exact h (h3 k hk)

theorem bindArgs_error {params : List (String × Option KwVal)} {varkw : Bool} {pos : List KwVal} {kw : Kw} {k : String} (hk : k ∈ kw.keys)
    (h : k ∈ (params.map Prod.fst).take pos.length) : bindArgs params varkw pos kw = .error .typeError := by
  unfold bindArgs
  dsimp only
  by_cases h1 : params.length < pos.length
  · rw [if_pos h1]
  · rw [if_neg h1, if_pos ⟨k, hk, h⟩]

/-! ### the basis classes -/

/-- the default of `normalize` -/
def BasisCls.normalizes : BasisCls → Bool
  | .bSpline => false
  | _ => true

/-- the default of `xrange` -/
def BasisCls.range : BasisCls → KwVal
  | .logX => .tup (.num 0.01) (.int 1)
  | .logXLogY => .tup (.num 0.1) (.int 1)
  | _ => .tup (.int 0) (.int 1)

/-- the keywords of a basis class after the number of basis functions -/
def basisKeys : List String := ["knots", "interior_knots", "xrange", "k", "normalize"]

theorem bind_plain_ok (b : Bool) (n : KwVal) (kw : Kw) (hk : ∀ k ∈ kw.keys, k ∈ basisKeys) :
    ∃ r, bindArgs (plainParams b) false [n] kw = .ok ⟨fun k => ((PyDict.get? ([("n_df", n)] ++ kw ++ (plainParams b).map fun p => (p.1, p.2.getD .pyNone)) k)).getD .pyNone, r⟩ := by
  unfold bindArgs
  have h1 : ¬ (plainParams b).length < [n].length := by simp [plainParams]
  have h2 : ¬ ∃ k ∈ kw.keys, k ∈ ((plainParams b).map Prod.fst).take [n].length := by
    rintro ⟨k, h, h'⟩
    have := hk k h
    simp [plainParams] at h'
    subst h'
    simp [basisKeys] at this
  have h3 : ¬ (false = false ∧ ∃ k ∈ kw.keys, k ∉ (plainParams b).map Prod.fst) := by
    rintro ⟨-, k, h, h'⟩
    have := hk k h
    simp [basisKeys, plainParams] at this h'
    tauto
  have h4 : ¬ ∃ p ∈ (plainParams b).drop [n].length, p.2 = none ∧ p.1 ∉ kw.keys := by
    simp [plainParams]
  dsimp only
  rw [if_neg h1, if_neg h2, if_neg h3, if_neg h4]
  exact ⟨_, rfl⟩

theorem basisSplineInit_ok (n : KwVal) (kw : Kw) (hk : ∀ k ∈ kw.keys, k ∈ basisKeys) :
    basisSplineInit [n] kw = .ok ⟨.basisSpline, n, opt kw "knots" .pyNone, opt kw "interior_knots" .pyNone, opt kw "xrange" (.tup (.int 0) (.int 1)), opt kw "k" (.int 4),
      opt kw "normalize" (.flag true)⟩ := by
  obtain ⟨r, h⟩ := bind_plain_ok true n kw hk
  unfold basisSplineInit
  rw [h]
  show Except.ok _ = _
  dsimp only
  rw [env_opt (k := "knots") (d := .pyNone) rfl rfl, env_opt (k := "interior_knots") (d := .pyNone) rfl rfl, env_opt (k := "xrange") (d := .tup (.int 0) (.int 1)) rfl rfl,
    env_opt (k := "k") (d := .int 4) rfl rfl, env_opt (k := "normalize") (d := .flag true) rfl rfl]
  rfl

theorem bSplineInit_ok (n : KwVal) (kw : Kw) (hk : ∀ k ∈ kw.keys, k ∈ basisKeys) :
    bSplineInit [n] kw = .ok ⟨.bSpline, n, opt kw "knots" .pyNone, opt kw "interior_knots" .pyNone, opt kw "xrange" (.tup (.int 0) (.int 1)), opt kw "k" (.int 4),
      opt kw "normalize" (.flag false)⟩ := by
  obtain ⟨r, h⟩ := bind_plain_ok false n kw hk
  unfold bSplineInit
  rw [h]
  simp only [bind, Except.bind, List.map_cons, List.map_nil]
  rw [env_opt (k := "knots") (d := .pyNone) rfl rfl, env_opt (k := "interior_knots") (d := .pyNone) rfl rfl, env_opt (k := "xrange") (d := .tup (.int 0) (.int 1)) rfl rfl,
    env_opt (k := "k") (d := .int 4) rfl rfl, env_opt (k := "normalize") (d := .flag false) rfl rfl]
  simp [PyDict.get?, plainParams, basisSplineInit, bindArgs, PyDict.keys, bind, Except.bind]

theorem plain_error (b : Bool) (n : KwVal) (kw : Kw) {k : String} (hk : k ∈ kw.keys) (hb : k ∉ basisKeys) : bindArgs (plainParams b) false [n] kw = .error .typeError := by
  unfold bindArgs
  dsimp only
  by_cases h : k = "n_df"
  · subst h
    rw [if_neg (by simp [plainParams]), if_pos ⟨_, hk, by simp [plainParams]⟩]
  · rw [if_neg (by simp [plainParams])]
    by_cases h1 : ∃ k ∈ kw.keys, k ∈ ((plainParams b).map Prod.fst).take [n].length
    · rw [if_pos h1]
    · rw [if_neg h1, if_pos ⟨rfl, k, hk, by simp [plainParams, h]; simpa [basisKeys] using hb⟩]

/-- the classes with logarithms, given what the parent does -/
theorem logInit_ok {cls : BasisCls} {xr : KwVal} {parent : List KwVal → Kw → Except PyErr SplineArgs} {c0 : BasisCls} {xr0 nz0 : KwVal}
    (hp : ∀ n kw, (∀ k ∈ PyDict.keys kw, k ∈ basisKeys) → (PyDict.keys kw).Nodup →
      parent [n] kw = .ok ⟨c0, n, opt kw "knots" .pyNone, opt kw "interior_knots" .pyNone, opt kw "xrange" xr0, opt kw "k" (.int 4), opt kw "normalize" nz0⟩)
    (n : KwVal) (kw : Kw) (hk : ∀ k ∈ kw.keys, k ∈ basisKeys) (hn : kw.keys.Nodup) :
    logInit cls xr parent [n] kw = .ok ⟨cls, n, opt kw "knots" .pyNone, opt kw "interior_knots" .pyNone, opt kw "xrange" xr, opt kw "k" (.int 4), opt kw "normalize" (.flag true)⟩ := by
  unfold logInit bindArgs
  have h1 : ¬ (logParams xr).length < [n].length := by simp [logParams]
  have h2 : ¬ ∃ k ∈ kw.keys, k ∈ ((logParams xr).map Prod.fst).take [n].length := by
    rintro ⟨k, h, h'⟩
    have := hk k h
    simp [logParams] at h'
    subst h'
    simp [basisKeys] at this
  have h4 : ¬ ∃ p ∈ (logParams xr).drop [n].length, p.2 = none ∧ p.1 ∉ kw.keys := by
    simp [logParams]
  have h3 : ¬ (true = false ∧ ∃ k ∈ kw.keys, k ∉ (logParams xr).map Prod.fst) := by simp
  simp only [h1, h2, h3, h4, if_false, bind, Except.bind]
  set env : String → KwVal := fun k => ((PyDict.get? (((logParams xr).map Prod.fst).zip [n] ++ kw ++ (logParams xr).map fun p => (p.1, p.2.getD .pyNone)) k)).getD .pyNone with henv
  have e1 : env "n_df" = n := rfl
  have e2 : env "knots" = opt kw "knots" .pyNone := env_opt rfl rfl
  have e3 : env "interior_knots" = opt kw "interior_knots" .pyNone := env_opt rfl rfl
  have e4 : env "xrange" = opt kw "xrange" xr := env_opt rfl rfl
  have e5 : env "normalize" = opt kw "normalize" (.flag true) := env_opt rfl rfl
  have hrk : ∀ k ∈ PyDict.keys (kw.filter fun p => decide (p.1 ∉ (logParams xr).map Prod.fst)), k = "k" := by
    intro k h
    rw [kw_keys_filter _ (fun k => k ∉ (logParams xr).map Prod.fst)] at h
    have := hk k h.1
    have h' := h.2
    simp only [basisKeys, List.mem_cons, List.not_mem_nil, or_false] at this
    rcases this with rfl | rfl | rfl | rfl | rfl
    · simp [logParams] at h'
    · simp [logParams] at h'
    · simp [logParams] at h'
    · rfl
    · simp [logParams] at h'
  set rest : Kw := kw.filter fun p => decide (p.1 ∉ (logParams xr).map Prod.fst) with hrest
  have hrn : rest.keys.Nodup := kw_nodup_filter hn _
  have hm : mergeKw [["knots", "interior_knots", "xrange"].map fun n => (n, env n), rest] = .ok ([("knots", env "knots"), ("interior_knots", env "interior_knots"), ("xrange", env "xrange")] ++ rest) := by
    unfold mergeKw
    rw [if_pos]
    · simp
    · simp only [List.flatten_cons, List.flatten_nil, List.append_nil, kw_keys_append]
      refine List.nodup_append.2 ⟨by simp [PyDict.keys], hrn, ?_⟩
      intro a ha b hb
      rw [hrk b hb]
      simp [PyDict.keys] at ha
      rintro rfl
      simp at ha
  rw [hm]
  simp only
  rw [hp]
  · have gk : PyDict.get? rest "k" = PyDict.get? kw "k" := by
      rw [hrest, kw_get_filter _ (fun k => k ∉ (logParams xr).map Prod.fst)]
      simp [logParams]
    simp only [henv, kw_get_append, opt] at e5
    simp [e2, e3, e4, opt, kw_get_append, PyDict.get?, gk]
    exact ⟨rfl, by simpa using e5⟩
  · intro k h
    simp only [kw_keys_append, List.mem_append] at h
    rcases h with h | h
    · simp [PyDict.keys] at h
      simp [basisKeys]; tauto
    · simp [hrk k h, basisKeys]
  · simp only [kw_keys_append]
    refine List.nodup_append.2 ⟨by simp [PyDict.keys], hrn, ?_⟩
    intro a ha b hb
    rw [hrk b hb]
    simp [PyDict.keys] at ha
    rintro rfl
    simp at ha

theorem logInit_error {cls : BasisCls} {xr : KwVal} {parent : List KwVal → Kw → Except PyErr SplineArgs}
    (hp : ∀ n kw k, k ∈ PyDict.keys kw → k ∉ basisKeys → parent [n] kw = .error .typeError)
    (n : KwVal) (kw : Kw) {k : String} (hk : k ∈ kw.keys) (hb : k ∉ basisKeys) : logInit cls xr parent [n] kw = .error .typeError := by
  unfold logInit bindArgs
  simp only
  rw [if_neg (by simp [logParams])]
  split_ifs with h1 h2 h3
  · rfl
  · rfl
  · rfl
  · simp only [bind, Except.bind]
    unfold mergeKw
    split_ifs with h4
    · simp only
      have hin : k ∈ PyDict.keys (kw.filter fun p => decide (p.1 ∉ (logParams xr).map Prod.fst)) := by
        rw [kw_keys_filter _ (fun k => k ∉ (logParams xr).map Prod.fst)]
        refine ⟨hk, fun h => ?_⟩
        have : k = "n_df" := by simp [basisKeys, logParams] at h hb; tauto
        subst this
        exact h1 ⟨_, hk, by simp [logParams]⟩
      rw [hp _ _ k ?_ hb]
      simp only [List.flatten_cons, List.flatten_nil, List.append_nil, kw_keys_append, List.mem_append]
      exact Or.inr hin
    · rfl

theorem bSplineInit_error (n : KwVal) (kw : Kw) (k : String) (hk : k ∈ kw.keys) (hb : k ∉ basisKeys) : bSplineInit [n] kw = .error .typeError := by
  unfold bSplineInit
  rw [plain_error false n kw hk hb]
  rfl

/-- calling a basis class with good keywords -/
theorem basis_call_ok (c : BasisCls) (n : KwVal) (kw : Kw) (hk : ∀ k ∈ kw.keys, k ∈ basisKeys) (hn : kw.keys.Nodup) :
    c.call [n] kw = .ok ⟨c, n, opt kw "knots" .pyNone, opt kw "interior_knots" .pyNone, opt kw "xrange" c.range, opt kw "k" (.int 4), opt kw "normalize" (.flag c.normalizes)⟩ := by
  cases c
  · exact basisSplineInit_ok n kw hk
  · exact bSplineInit_ok n kw hk
  · exact logInit_ok (fun n kw h _ => bSplineInit_ok n kw h) n kw hk hn
  · exact logInit_ok (fun n kw h _ => bSplineInit_ok n kw h) n kw hk hn
  · exact logInit_ok (fun n kw h h' => logInit_ok (fun n kw h _ => bSplineInit_ok n kw h) n kw h h') n kw hk hn

/-- calling a basis class with a keyword it does not have -/
theorem basis_call_error (c : BasisCls) (n : KwVal) (kw : Kw) {k : String} (hk : k ∈ kw.keys) (hb : k ∉ basisKeys) : c.call [n] kw = .error .typeError := by
  cases c
  · show basisSplineInit [n] kw = _
    unfold basisSplineInit
    rw [plain_error true n kw hk hb]
    rfl
  · exact bSplineInit_error n kw k hk hb
  · exact logInit_error bSplineInit_error n kw hk hb
  · exact logInit_error bSplineInit_error n kw hk hb
  · exact logInit_error (fun n kw k h h' => logInit_error bSplineInit_error n kw h h') n kw hk hb

/-! ### the base model -/

/-- the keywords of the base model after the data -/
def modelKeys : List String := ["xrange", "degree", "basis", "knots", "interior_knots", "normalize"]

/-- what a model is made of, given the values of its keywords: a range that is not a pair, a degree that is not a whole number or a basis that is not a class is refused -/
def specModel (n x xInj xrange degree basis knots interior : KwVal) (normalize : BasisCls → KwVal) : Except PyErr Model1 :=
  match xrange, degree, basis with
  | .tup lo hi, .int d, .cls b => .ok ⟨⟨b, n, knots, interior, .tup lo hi, .int (d + 1), normalize b⟩, x, xInj, lo, hi⟩
  | _, _, _ => .error .typeError

theorem baseInit_ok (n x xi : KwVal) (kw : Kw) (hk : ∀ k ∈ kw.keys, k ∈ modelKeys) (hn : kw.keys.Nodup) :
    baseInit [n, x, xi] kw = specModel n x xi (opt kw "xrange" (.tup (.num 0) (.num 1))) (opt kw "degree" (.int 3)) (opt kw "basis" (.cls .bSpline))
      (opt kw "knots" .pyNone) (opt kw "interior_knots" .pyNone) (fun b => opt kw "normalize" (.flag b.normalizes)) := by
  unfold baseInit
  have h2 : ∀ k ∈ kw.keys, k ∉ ["n_splines", "xx", "xx_inj"] := by
    intro k h h'
    have := hk k h
    simp only [List.mem_cons, List.not_mem_nil, or_false] at h'
    rcases h' with rfl | rfl | rfl <;> simp [modelKeys] at this
  rw [bindArgs_ok (by simp [baseParams]) h2 (Or.inl rfl) (by simp [baseParams])]
  simp only [bind, Except.bind]
  rw [env_opt (k := "xrange") (d := .tup (.num 0) (.num 1)) rfl rfl, env_opt (k := "degree") (d := .int 3) rfl rfl, env_opt (k := "basis") (d := .cls .bSpline) rfl rfl]
  generalize opt kw "xrange" (.tup (.num 0) (.num 1)) = vx
  generalize opt kw "degree" (.int 3) = vd
  generalize opt kw "basis" (.cls .bSpline) = vb
  unfold specModel
  cases vx <;> try rfl
  cases vd <;> try rfl
  cases vb <;> try rfl
  rename_i lo hi d b
  dsimp only
  set names : List String := baseParams.map Prod.fst with hnames
  set rest : Kw := kw.filter fun p => decide (p.1 ∉ names) with hrest
  have hrk : ∀ k ∈ PyDict.keys rest, k ∈ ["knots", "interior_knots", "normalize"] := by
    intro k h
    rw [hrest, kw_keys_filter _ (fun k => k ∉ names)] at h
    have := hk k h.1
    have h' := h.2
    simp only [modelKeys, List.mem_cons, List.not_mem_nil, or_false] at this
    rcases this with rfl | rfl | rfl | rfl | rfl | rfl
    · simp [hnames, baseParams] at h'
    · simp [hnames, baseParams] at h'
    · simp [hnames, baseParams] at h'
    · simp
    · simp
    · simp
  have hrn : rest.keys.Nodup := kw_nodup_filter hn _
  have hnd : (PyDict.keys ([("xrange", KwVal.tup lo hi), ("k", .int (d + 1))] ++ rest)).Nodup := by
    simp only [kw_keys_append]
    refine List.nodup_append.2 ⟨by simp [PyDict.keys], hrn, ?_⟩
    intro a ha b hb
    have := hrk b hb
    simp only [List.mem_cons, List.not_mem_nil, or_false] at this
    simp only [PyDict.keys, List.map_cons, List.map_nil, List.mem_cons, List.not_mem_nil, or_false] at ha
    rcases ha with rfl | rfl <;> rcases this with rfl | rfl | rfl <;> decide
  have hm : mergeKw [[("xrange", KwVal.tup lo hi)], [("k", .int (d + 1))], rest] = .ok ([("xrange", KwVal.tup lo hi), ("k", .int (d + 1))] ++ rest) := by
    unfold mergeKw
    rw [show ([[("xrange", KwVal.tup lo hi)], [("k", .int (d + 1))], rest] : List Kw).flatten = [("xrange", KwVal.tup lo hi), ("k", .int (d + 1))] ++ rest by simp, if_pos hnd]
  rw [hm]
  dsimp only
  rw [basis_call_ok b _ _ _ hnd]
  · have g : ∀ k, k ∉ names → PyDict.get? rest k = PyDict.get? kw k := by
      intro k h
      rw [hrest, kw_get_filter _ (fun k => k ∉ names), if_pos h]
    simp only [opt, kw_get_append]
    rw [g "knots" (by simp [hnames, baseParams]), g "interior_knots" (by simp [hnames, baseParams]), g "normalize" (by simp [hnames, baseParams])]
    simp [PyDict.get?, hnames, baseParams]
  · intro k h
    simp only [kw_keys_append, List.mem_append] at h
    rcases h with h | h
    · simp only [PyDict.keys, List.map_cons, List.map_nil, List.mem_cons, List.not_mem_nil, or_false] at h
      rcases h with rfl | rfl <;> simp [basisKeys]
    · have := hrk k h
      simp only [List.mem_cons, List.not_mem_nil, or_false] at this
      rcases this with rfl | rfl | rfl <;> simp [basisKeys]

theorem baseInit_error (n x xi : KwVal) (kw : Kw) {k : String} (hk : k ∈ kw.keys) (hb : k ∉ modelKeys) : baseInit [n, x, xi] kw = .error .typeError := by
  unfold baseInit
  by_cases h2 : ∃ k ∈ kw.keys, k ∈ ["n_splines", "xx", "xx_inj"]
  · obtain ⟨k, h, h'⟩ := h2
    rw [bindArgs_error (params := baseParams) (pos := [n, x, xi]) h h']
    rfl
  rw [bindArgs_ok (params := baseParams) (pos := [n, x, xi]) (by simp [baseParams]) (fun k h h' => h2 ⟨k, h, h'⟩) (Or.inl rfl) (by simp [baseParams])]
  simp only [bind, Except.bind]
  split
  · rename_i lo hi d b _ _ _
    have hin : k ∈ PyDict.keys (kw.filter fun p => decide (p.1 ∉ baseParams.map Prod.fst)) := by
      rw [kw_keys_filter _ (fun k => k ∉ baseParams.map Prod.fst)]
      refine ⟨hk, fun h => ?_⟩
      simp only [baseParams, List.map_cons, List.map_nil, List.mem_cons, List.not_mem_nil, or_false] at h
      rcases h with rfl | rfl | rfl | rfl | rfl | rfl
      · exact h2 ⟨_, hk, by simp⟩
      · exact h2 ⟨_, hk, by simp⟩
      · exact h2 ⟨_, hk, by simp⟩
      · exact hb (by simp [modelKeys])
      · exact hb (by simp [modelKeys])
      · exact hb (by simp [modelKeys])
    generalize kw.filter (fun p => decide (p.1 ∉ baseParams.map Prod.fst)) = rest at *
    unfold mergeKw
    rw [show ([[("xrange", KwVal.tup lo hi)], [("k", .int (d + 1))], rest] : List Kw).flatten = [("xrange", KwVal.tup lo hi), ("k", .int (d + 1))] ++ rest by simp]
    split_ifs with h4
    · dsimp only
      by_cases hkk : k = "k"
      · subst hkk
        rw [kw_keys_append] at h4
        exact absurd rfl ((List.nodup_append.1 h4).2.2 "k" (by simp [PyDict.keys]) "k" hin)
      · rw [basis_call_error b _ _ (k := k) (by rw [kw_keys_append]; exact List.mem_append_right _ hin)]
        intro h
        simp only [basisKeys, List.mem_cons, List.not_mem_nil, or_false] at h
        rcases h with rfl | rfl | rfl | rfl | rfl
        · exact hb (by simp [modelKeys])
        · exact hb (by simp [modelKeys])
        · exact hb (by simp [modelKeys])
        · exact hkk rfl
        · exact hb (by simp [modelKeys])
    · rfl
  · rfl

/-! ### the classes of single.py -/

/-- names do not clash -/
structure Single.Clean (S : Single) : Prop where
  three : S.data.length = 3
  nodup : S.data.Nodup
  data : ∀ k ∈ S.data, k ∉ modelKeys ∧ k ∉ PyDict.keys S.extra
  extra : ∀ k ∈ PyDict.keys S.extra, k ∉ modelKeys
  range : ∀ e e' : String → KwVal, (∀ k ∈ PyDict.keys S.extra, e k = e' k) → S.range e = S.range e'

/-- the model made by a class of single.py, given its keywords -/
def Single.spec (S : Single) (n x xInj : KwVal) (kw : Kw) : Except PyErr Model1 :=
  specModel n x xInj (opt kw "xrange" (S.range fun e => opt kw e (opt S.extra e .pyNone))) (opt kw "degree" (.int 3)) (opt kw "basis" (.cls S.basis))
    (opt kw "knots" .pyNone) (opt kw "interior_knots" .pyNone) (fun b => opt kw "normalize" (.flag b.normalizes))

theorem Single.names (S : Single) : S.params.map Prod.fst = S.data ++ PyDict.keys S.extra ++ ["basis"] := by
  simp [Single.params, PyDict.keys, Function.comp_def]

theorem get_zip_none {l : List String} {v : List KwVal} {k : String} (h : k ∉ l) : PyDict.get? (l.zip v) k = none := by
  rw [PyDict.get?_none_iff]
  intro h'
  simp only [PyDict.keys, List.mem_map] at h'
  obtain ⟨p, hp, rfl⟩ := h'
  exact h (List.of_mem_zip hp).1

theorem Single.init_ok {S : Single} (hS : S.Clean) (n x xi : KwVal) (kw : Kw) (hk : ∀ k ∈ kw.keys, k ∈ modelKeys ++ PyDict.keys S.extra) (hn : kw.keys.Nodup) :
    S.init [n, x, xi] kw = S.spec n x xi kw := by
  have htake : (S.params.map Prod.fst).take [n, x, xi].length = S.data := by
    rw [S.names, List.append_assoc, List.take_append_of_le_length (by simp [hS.three]), List.take_of_length_le (by simp [hS.three])]
  have hkd : ∀ k ∈ kw.keys, k ∉ S.data := by
    intro k h h'
    rcases List.mem_append.1 (hk k h) with h1 | h1
    · exact (hS.data k h').1 h1
    · exact (hS.data k h').2 h1
  have hzip : (S.params.map Prod.fst).zip [n, x, xi] = S.data.zip [n, x, xi] := by
    rw [S.names, List.append_assoc]
    have : [n, x, xi] = [n, x, xi] ++ [] := by simp
    rw [this, List.zip_append (by simp [hS.three])]
    simp
  unfold Single.init
  rw [bindArgs_ok (by simp [Single.params, hS.three]) (by rw [htake]; exact hkd) (Or.inl rfl) ?_]
  swap
  · intro p hp h
    have hd : S.params.drop [n, x, xi].length = S.extra.map (fun p => (p.1, some p.2)) ++ [("basis", some (.cls S.basis))] := by
      rw [Single.params, List.append_assoc, List.drop_append_of_le_length (by simp [hS.three]), List.drop_of_length_le (by simp [hS.three])]
      simp
    rw [hd] at hp
    simp only [List.mem_append, List.mem_map, List.mem_singleton] at hp
    rcases hp with ⟨q, -, rfl⟩ | rfl <;> simp at h
  rw [hzip]
  simp only [bind, Except.bind]
  set env : String → KwVal := fun k => (PyDict.get? (S.data.zip [n, x, xi] ++ kw ++ S.params.map fun p => (p.1, p.2.getD .pyNone)) k).getD .pyNone with henv
  set rest : Kw := kw.filter fun p => decide (p.1 ∉ S.params.map Prod.fst) with hrest
  have hbd : "basis" ∉ S.data := fun h => (hS.data _ h).1 (by simp [modelKeys])
  have hbe : "basis" ∉ PyDict.keys S.extra := fun h => hS.extra _ h (by simp [modelKeys])
  have hdef : S.params.map (fun p => (p.1, p.2.getD .pyNone)) = S.data.map (fun k => (k, KwVal.pyNone)) ++ S.extra ++ [("basis", .cls S.basis)] := by
    simp [Single.params, Function.comp_def]
  have hdn : ∀ k, k ∉ S.data → PyDict.get? (S.data.map (fun k => (k, KwVal.pyNone))) k = none := by
    intro k h
    rw [PyDict.get?_none_iff]
    simpa [PyDict.keys, Function.comp_def] using h
  have eb : env "basis" = opt kw "basis" (.cls S.basis) := by
    refine env_opt (get_zip_none hbd) ?_
    rw [hdef, kw_get_append, kw_get_append, hdn _ hbd, (PyDict.get?_none_iff S.extra _).2 hbe]
    simp [PyDict.get?]
  have ee : ∀ k ∈ PyDict.keys S.extra, env k = opt kw k (opt S.extra k .pyNone) := by
    intro k h
    have hd : k ∉ S.data := fun h' => (hS.data k h').2 h
    obtain ⟨v, hv⟩ := (PyDict.mem_keys_iff S.extra k).1 h
    refine env_opt (get_zip_none hd) ?_
    rw [hdef, kw_get_append, kw_get_append, hdn _ hd, hv]
    simp [opt, hv]
  have ed : S.data.map env = [n, x, xi] := by
    obtain ⟨a, b, c, habc⟩ : ∃ a b c, S.data = [a, b, c] := List.length_eq_three.1 hS.three
    have hnd := hS.nodup
    simp only [henv, kw_get_append]
    rw [habc] at hnd ⊢
    simp only [List.nodup_cons, List.mem_cons, List.not_mem_nil, or_false, not_or, not_false_eq_true, List.nodup_nil, and_true] at hnd
    simp [PyDict.get?, hnd.1.1, hnd.1.2, hnd.2]
  have hx : "xrange" ∉ S.params.map Prod.fst := by
    rw [S.names]
    intro h
    simp only [List.mem_append, List.mem_singleton] at h
    rcases h with (h | h) | h
    · exact (hS.data _ h).1 (by simp [modelKeys])
    · exact hS.extra _ h (by simp [modelKeys])
    · simp at h
  have gx : PyDict.get? rest "xrange" = PyDict.get? kw "xrange" := by
    rw [hrest, kw_get_filter _ (fun k => k ∉ S.params.map Prod.fst), if_pos hx]
  have hr : S.range env = S.range fun e => opt kw e (opt S.extra e .pyNone) := hS.range _ _ ee
  have eb' : (PyDict.get? (S.data.zip [n, x, xi] ++ kw ++ S.params.map fun p => (p.1, p.2.getD .pyNone)) "basis").getD .pyNone = opt kw "basis" (.cls S.basis) := eb
  rw [gx, hr, eb', ed, show (PyDict.get? kw "xrange").getD (S.range fun e => opt kw e (opt S.extra e .pyNone)) = opt kw "xrange" (S.range fun e => opt kw e (opt S.extra e .pyNone)) from rfl]
  set rest2 : Kw := rest.filter fun p => decide (p.1 ≠ "xrange") with hrest2
  have hk2 : ∀ k ∈ rest2.keys, k ∈ ["degree", "knots", "interior_knots", "normalize"] := by
    intro k h
    rw [hrest2, kw_keys_filter _ (fun k => k ≠ "xrange"), hrest, kw_keys_filter _ (fun k => k ∉ S.params.map Prod.fst)] at h
    obtain ⟨⟨h1, h2⟩, h3⟩ := h
    rw [S.names] at h2
    simp only [List.mem_append, List.mem_singleton, not_or] at h2
    rcases List.mem_append.1 (hk k h1) with h4 | h4
    · simp only [modelKeys, List.mem_cons, List.not_mem_nil, or_false] at h4
      rcases h4 with rfl | rfl | rfl | rfl | rfl | rfl
      · exact absurd rfl h3
      · simp
      · exact absurd rfl h2.2
      · simp
      · simp
      · simp
    · exact absurd h4 h2.1.2
  have hn2 : rest2.keys.Nodup := kw_nodup_filter (kw_nodup_filter hn _) _
  generalize hvb : opt kw "basis" (.cls S.basis) = vb
  generalize hvx : opt kw "xrange" (S.range fun e => opt kw e (opt S.extra e .pyNone)) = vx
  have hnd : (PyDict.keys ([("basis", vb), ("xrange", vx)] ++ rest2)).Nodup := by
    simp only [kw_keys_append]
    refine List.nodup_append.2 ⟨by simp [PyDict.keys], hn2, ?_⟩
    intro a ha b hb
    have := hk2 b hb
    simp only [List.mem_cons, List.not_mem_nil, or_false] at this
    simp only [PyDict.keys, List.map_cons, List.map_nil, List.mem_cons, List.not_mem_nil, or_false] at ha
    rcases ha with rfl | rfl <;> rcases this with rfl | rfl | rfl | rfl <;> decide
  unfold mergeKw
  rw [show ([[("basis", vb), ("xrange", vx)], rest2] : List Kw).flatten = [("basis", vb), ("xrange", vx)] ++ rest2 by simp, if_pos hnd]
  show baseInit [n, x, xi] _ = _
  rw [baseInit_ok _ _ _ _ _ hnd]
  · have g : ∀ k, k ∈ ["degree", "knots", "interior_knots", "normalize"] → PyDict.get? rest2 k = PyDict.get? kw k := by
      intro k h
      have hm : k ∈ modelKeys := by
        simp only [List.mem_cons, List.not_mem_nil, or_false] at h
        rcases h with rfl | rfl | rfl | rfl <;> simp [modelKeys]
      have hb' : k ≠ "basis" := by rintro rfl; simp at h
      have hx' : k ≠ "xrange" := by rintro rfl; simp at h
      rw [hrest2, kw_get_filter _ (fun k => k ≠ "xrange"), if_pos hx', hrest, kw_get_filter _ (fun k => k ∉ S.params.map Prod.fst), if_pos]
      rw [S.names]
      intro h'
      simp only [List.mem_append, List.mem_singleton] at h'
      rcases h' with (h' | h') | h'
      · exact (hS.data _ h').1 hm
      · exact hS.extra _ h' hm
      · exact hb' h'
    have o : ∀ k d, k ∈ ["degree", "knots", "interior_knots", "normalize"] → opt ([("basis", vb), ("xrange", vx)] ++ rest2) k d = opt kw k d := by
      intro k d h
      have hb' : "basis" ≠ k := by rintro rfl; simp at h
      have hx' : "xrange" ≠ k := by rintro rfl; simp at h
      simp [opt, PyDict.get?, hb', hx', g k h]
    unfold Single.spec
    rw [hvb, hvx, o "degree" _ (by simp), o "knots" _ (by simp), o "interior_knots" _ (by simp)]
    have o5 : (fun b : BasisCls => opt ([("basis", vb), ("xrange", vx)] ++ rest2) "normalize" (.flag b.normalizes)) = fun b => opt kw "normalize" (.flag b.normalizes) := by
      funext b
      exact o "normalize" _ (by simp)
    rw [o5]
    simp [opt, PyDict.get?]
  · intro k h
    simp only [kw_keys_append, List.mem_append] at h
    rcases h with h | h
    · simp only [PyDict.keys, List.map_cons, List.map_nil, List.mem_cons, List.not_mem_nil, or_false] at h
      rcases h with rfl | rfl <;> simp [modelKeys]
    · have := hk2 k h
      simp only [List.mem_cons, List.not_mem_nil, or_false] at this
      rcases this with rfl | rfl | rfl | rfl <;> simp [modelKeys]

theorem Single.init_error {S : Single} (hS : S.Clean) (n x xi : KwVal) (kw : Kw) {k : String} (hk : k ∈ kw.keys) (hb : k ∉ modelKeys ++ PyDict.keys S.extra) :
    S.init [n, x, xi] kw = .error .typeError := by
  simp only [List.mem_append, not_or] at hb
  have htake : (S.params.map Prod.fst).take [n, x, xi].length = S.data := by
    rw [S.names, List.append_assoc, List.take_append_of_le_length (by simp [hS.three]), List.take_of_length_le (by simp [hS.three])]
  unfold Single.init
  by_cases h2 : ∃ k ∈ kw.keys, k ∈ S.data
  · obtain ⟨k, h, h'⟩ := h2
    rw [bindArgs_error (params := S.params) (pos := [n, x, xi]) h (by rw [htake]; exact h')]
    rfl
  rw [bindArgs_ok (by simp [Single.params, hS.three]) (by rw [htake]; exact fun k h h' => h2 ⟨k, h, h'⟩) (Or.inl rfl) ?_]
  swap
  · intro p hp h
    have hd : S.params.drop [n, x, xi].length = S.extra.map (fun p => (p.1, some p.2)) ++ [("basis", some (.cls S.basis))] := by
      rw [Single.params, List.append_assoc, List.drop_append_of_le_length (by simp [hS.three]), List.drop_of_length_le (by simp [hS.three])]
      simp
    rw [hd] at hp
    simp only [List.mem_append, List.mem_map, List.mem_singleton] at hp
    rcases hp with ⟨q, -, rfl⟩ | rfl <;> simp at h
  simp only [bind, Except.bind]
  obtain ⟨a, b, c, habc⟩ : ∃ a b c, S.data = [a, b, c] := List.length_eq_three.1 hS.three
  unfold mergeKw
  split_ifs with h4
  · dsimp only
    rw [habc]
    refine baseInit_error _ _ _ _ (k := k) ?_ hb.1
    simp only [List.flatten_cons, List.flatten_nil, List.append_nil, kw_keys_append]
    refine List.mem_append_right _ ?_
    rw [kw_keys_filter _ (fun k => k ≠ "xrange"), kw_keys_filter _ (fun k => k ∉ S.params.map Prod.fst)]
    refine ⟨⟨hk, ?_⟩, ?_⟩
    · rw [S.names]
      intro h
      simp only [List.mem_append, List.mem_singleton] at h
      rcases h with (h | h) | h
      · exact h2 ⟨k, hk, h⟩
      · exact hb.2 h
      · subst h; exact hb.1 (by simp [modelKeys])
    · rintro rfl
      exact hb.1 (by simp [modelKeys])
  · rfl

/-- data by keyword or by position makes no difference -/
theorem Single.init_keyword {S : Single} (hS : S.Clean) (n x xi : KwVal) (kw : Kw) (hkd : ∀ k ∈ kw.keys, k ∉ S.data) :
    S.init [] (S.data.zip [n, x, xi] ++ kw) = S.init [n, x, xi] kw := by
  have htake : (S.params.map Prod.fst).take [n, x, xi].length = S.data := by
    rw [S.names, List.append_assoc, List.take_append_of_le_length (by simp [hS.three]), List.take_of_length_le (by simp [hS.three])]
  have hzip : (S.params.map Prod.fst).zip [n, x, xi] = S.data.zip [n, x, xi] := by
    rw [S.names, List.append_assoc]
    have : [n, x, xi] = [n, x, xi] ++ [] := by simp
    rw [this, List.zip_append (by simp [hS.three])]
    simp
  have hzk : PyDict.keys (S.data.zip [n, x, xi]) = S.data := by
    unfold PyDict.keys
    rw [List.map_fst_zip (by simp [hS.three])]
  have hd : S.params.drop [n, x, xi].length = S.extra.map (fun p => (p.1, some p.2)) ++ [("basis", some (.cls S.basis))] := by
    rw [Single.params, List.append_assoc, List.drop_append_of_le_length (by simp [hS.three]), List.drop_of_length_le (by simp [hS.three])]
    simp
  unfold Single.init
  rw [bindArgs_ok (pos := [n, x, xi]) (by simp [Single.params, hS.three]) (by rw [htake]; exact hkd) (Or.inl rfl) ?_, bindArgs_ok (pos := []) (by simp) (by simp) (Or.inl rfl) ?_]
  · have hf : (S.data.zip [n, x, xi] ++ kw).filter (fun p => decide (p.1 ∉ S.params.map Prod.fst)) = kw.filter fun p => decide (p.1 ∉ S.params.map Prod.fst) := by
      rw [List.filter_append]
      have : (S.data.zip [n, x, xi]).filter (fun p => decide (p.1 ∉ S.params.map Prod.fst)) = [] := by
        rw [List.filter_eq_nil_iff]
        intro p hp
        simp only [decide_eq_true_eq, not_not]
        rw [S.names]
        exact List.mem_append_left _ (List.mem_append_left _ (List.of_mem_zip hp).1)
      rw [this, List.nil_append]
    rw [hf, hzip]
    simp
  · intro p hp h
    rw [kw_keys_append, hzk]
    simp only [List.length_nil, List.drop_zero, Single.params, List.mem_append, List.mem_map, List.mem_singleton] at hp
    rcases hp with (⟨q, hq, rfl⟩ | ⟨q, -, rfl⟩) | rfl
    · exact List.mem_append_left _ hq
    · simp at h
    · simp at h
  · intro p hp h
    rw [hd] at hp
    simp only [List.mem_append, List.mem_map, List.mem_singleton] at hp
    rcases hp with ⟨q, -, rfl⟩ | rfl <;> simp at h

/-! ### C137 -/

/-- **C137** (a component given by keywords).  The keywords `kw`, explicit and unpacked ones together, reach the model as they should: each sets what it names, the others have their defaults; a
keyword given twice, an unknown one, or one with a value of the wrong type is refused with `TypeError`. -/
theorem C137_component {S : Single} (hS : S.Clean) (n x xi : KwVal) (own : Kw) (dicts : List Kw) :
    S.callKw n x xi own dicts = (if (PyDict.keys (own ++ dicts.flatten)).Nodup ∧ ∀ k ∈ PyDict.keys (own ++ dicts.flatten), k ∈ modelKeys ++ PyDict.keys S.extra then
      S.spec n x xi (own ++ dicts.flatten) else .error .typeError) ∧
    S.callPos n x xi own dicts = S.callKw n x xi own dicts := by
  have hzk : PyDict.keys (S.data.zip [n, x, xi]) = S.data := by
    unfold PyDict.keys
    rw [List.map_fst_zip (by simp [hS.three])]
  have key : S.callPos n x xi own dicts = (if (PyDict.keys (own ++ dicts.flatten)).Nodup ∧ ∀ k ∈ PyDict.keys (own ++ dicts.flatten), k ∈ modelKeys ++ PyDict.keys S.extra then
      S.spec n x xi (own ++ dicts.flatten) else .error .typeError) := by
    unfold Single.callPos mergeKw
    rw [List.flatten_cons]
    by_cases h1 : (PyDict.keys (own ++ dicts.flatten)).Nodup
    · rw [if_pos h1]
      show S.init [n, x, xi] _ = _
      by_cases h2 : ∀ k ∈ PyDict.keys (own ++ dicts.flatten), k ∈ modelKeys ++ PyDict.keys S.extra
      · rw [if_pos ⟨h1, h2⟩, Single.init_ok hS _ _ _ _ h2 h1]
      · rw [if_neg (fun h => h2 h.2)]
        push Not at h2
        obtain ⟨k, hk, hb⟩ := h2
        exact Single.init_error hS _ _ _ _ hk hb
    · rw [if_neg h1, if_neg (fun h => h1 h.1)]
      rfl
  have key2 : S.callPos n x xi own dicts = S.callKw n x xi own dicts := by
    by_cases h1 : (PyDict.keys (own ++ dicts.flatten)).Nodup
    · by_cases h2 : ∀ k ∈ PyDict.keys (own ++ dicts.flatten), k ∉ S.data
      · unfold Single.callPos Single.callKw mergeKw
        rw [List.flatten_cons, List.flatten_cons, List.append_assoc, if_pos h1, if_pos]
        · exact (Single.init_keyword hS n x xi _ h2).symm
        · rw [kw_keys_append, hzk]
          exact List.nodup_append.2 ⟨hS.nodup, h1, fun a ha b hb e => h2 b hb (e ▸ ha)⟩
      · rw [key]
        push Not at h2
        obtain ⟨k, hk, hd⟩ := h2
        rw [if_neg (fun h => ?_)]
        · unfold Single.callKw mergeKw
          rw [List.flatten_cons, List.append_assoc, if_neg]
          · rfl
          · rw [kw_keys_append, hzk]
            exact fun h => (List.nodup_append.1 h).2.2 k hd k hk rfl
        · rcases List.mem_append.1 (h.2 k hk) with h3 | h3
          · exact (hS.data k hd).1 h3
          · exact (hS.data k hd).2 h3
    · rw [key, if_neg (fun h => h1 h.1)]
      unfold Single.callKw mergeKw
      rw [List.flatten_cons, List.append_assoc, if_neg]
      · rfl
      · rw [kw_keys_append, hzk]
        exact fun h => h1 (List.nodup_append.1 h).2.1
  exact ⟨key2 ▸ key, key2⟩

theorem spinMagnitudeCls_clean : spinMagnitudeCls.Clean := ⟨rfl, by decide, by simp [spinMagnitudeCls, modelKeys, PyDict.keys], by simp [spinMagnitudeCls, PyDict.keys], fun _ _ _ => rfl⟩
theorem spinTiltCls_clean : spinTiltCls.Clean := ⟨rfl, by decide, by simp [spinTiltCls, modelKeys, PyDict.keys], by simp [spinTiltCls, PyDict.keys], fun _ _ _ => rfl⟩
theorem chiEffectiveCls_clean : chiEffectiveCls.Clean := ⟨rfl, by decide, by simp [chiEffectiveCls, modelKeys, PyDict.keys], by simp [chiEffectiveCls, PyDict.keys], fun _ _ _ => rfl⟩
theorem chiPrecessCls_clean : chiPrecessCls.Clean := ⟨rfl, by decide, by simp [chiPrecessCls, modelKeys, PyDict.keys], by simp [chiPrecessCls, PyDict.keys], fun _ _ _ => rfl⟩
theorem ratioCls_clean : ratioCls.Clean := ⟨rfl, by decide, by simp [ratioCls, modelKeys, PyDict.keys], by simp [ratioCls, modelKeys, PyDict.keys],
  fun e e' h => by have := h "qmin" (by simp [ratioCls, PyDict.keys]); simp [ratioCls, this]⟩
theorem massCls_clean : massCls.Clean := ⟨rfl, by decide, by simp [massCls, modelKeys, PyDict.keys], by simp [massCls, modelKeys, PyDict.keys],
  fun e e' h => by have h1 := h "mmin" (by simp [massCls, PyDict.keys]); have h2 := h "mmax" (by simp [massCls, PyDict.keys]); simp [massCls, h1, h2]⟩

/-- a component with the keywords `kw` -/
def Single.made (S : Single) (n x xInj : KwVal) (kw : Kw) : Except PyErr Model1 :=
  if (PyDict.keys kw).Nodup ∧ ∀ k ∈ PyDict.keys kw, k ∈ modelKeys ++ PyDict.keys S.extra then S.spec n x xInj kw else .error .typeError

/-- both components, the first error first -/
def both (p s : Except PyErr Model1) : Except PyErr (Model1 × Model1) :=
  match p, s with
  | .ok p, .ok s => .ok (p, s)
  | .error e, _ => .error e
  | .ok _, .error e => .error e

theorem both_do (p s : Except PyErr Model1) : (do let a ← p; let b ← s; Except.ok (a, b)) = both p s := by
  cases p <;> cases s <;> rfl

theorem made_kw {S : Single} (hS : S.Clean) (n x xi : KwVal) (own : Kw) (dicts : List Kw) : S.callKw n x xi own dicts = S.made n x xi (own ++ dicts.flatten) :=
  (C137_component hS n x xi own dicts).1
theorem made_pos {S : Single} (hS : S.Clean) (n x xi : KwVal) (own : Kw) (dicts : List Kw) : S.callPos n x xi own dicts = S.made n x xi (own ++ dicts.flatten) :=
  (C137_component hS n x xi own dicts).2.trans (made_kw hS n x xi own dicts)

/-- **C137** (the two components).  In the models with two components each gets its own number of basis functions, its own samples, its own dictionary and the shared keywords. -/
theorem C137_components (n1 n2 x1 x2 y1 y2 : KwVal) (lo1 hi1 lo2 hi2 : KwVal) (d1 d2 d : Kw) :
    independentSpinMagnitudesKw n1 n2 x1 x2 y1 y2 d1 d2 d = both (spinMagnitudeCls.made n1 x1 y1 (d1 ++ d)) (spinMagnitudeCls.made n2 x2 y2 (d2 ++ d)) ∧
    independentSpinTiltsKw n1 n2 x1 x2 y1 y2 d1 d2 d = both (spinTiltCls.made n1 x1 y1 (d1 ++ d)) (spinTiltCls.made n2 x2 y2 (d2 ++ d)) ∧
    independentComponentMassesKw n1 n2 x1 x2 y1 y2 lo1 hi1 lo2 hi2 d1 d2 d =
      both (massCls.made n1 x1 y1 ([("mmin", lo1), ("mmax", hi1)] ++ d1 ++ d)) (massCls.made n2 x2 y2 ([("mmin", lo2), ("mmax", hi2)] ++ d2 ++ d)) ∧
    effectiveSpinDimsKw n1 n2 x1 x2 y1 y2 d1 d2 d = both (chiEffectiveCls.made n1 x1 y1 (d1 ++ d)) (chiPrecessCls.made n2 x2 y2 (d2 ++ d)) ∧
    iidSpinMagnitudesKw n1 x1 x2 y1 y2 d = both (spinMagnitudeCls.made n1 x1 y1 d) (spinMagnitudeCls.made n1 x2 y2 d) ∧
    iidSpinTiltsKw n1 x1 x2 y1 y2 d = both (spinTiltCls.made n1 x1 y1 d) (spinTiltCls.made n1 x2 y2 d) ∧
    iidComponentMassesKw n1 x1 x2 y1 y2 lo1 hi1 d = both (massCls.made n1 x1 y1 ([("mmin", lo1), ("mmax", hi1)] ++ d)) (massCls.made n1 x2 y2 ([("mmin", lo1), ("mmax", hi1)] ++ d)) ∧
    primaryPowerlawRatioKw n1 x1 y1 lo1 hi1 d = massCls.made n1 x1 y1 ([("mmin", lo1), ("mmax", hi1)] ++ d) ∧
    plPeakPrimaryRatioKw n1 x1 y1 d = ratioCls.made n1 x1 y1 d := by
  have e1 : ∀ a b : Kw, ([] : Kw) ++ [a, b].flatten = a ++ b := by intro a b; simp
  have e2 : ∀ a : Kw, ([] : Kw) ++ [a].flatten = a := by intro a; simp
  have e3 : ∀ o a b : Kw, o ++ [a, b].flatten = o ++ a ++ b := by intro o a b; simp
  have e4 : ∀ o a : Kw, o ++ [a].flatten = o ++ a := by intro o a; simp
  refine ⟨?_, ?_, ?_, ?_, ?_, ?_, ?_, ?_, ?_⟩
  · rw [independentSpinMagnitudesKw, made_kw spinMagnitudeCls_clean, made_kw spinMagnitudeCls_clean, both_do, e1, e1]
  · rw [independentSpinTiltsKw, made_kw spinTiltCls_clean, made_kw spinTiltCls_clean, both_do, e1, e1]
  · rw [independentComponentMassesKw, made_kw massCls_clean, made_kw massCls_clean, both_do, e3, e3]
  · rw [effectiveSpinDimsKw, made_pos chiEffectiveCls_clean, made_pos chiPrecessCls_clean, both_do, e1, e1]
  · rw [iidSpinMagnitudesKw, made_kw spinMagnitudeCls_clean, made_kw spinMagnitudeCls_clean, both_do, e2]
  · rw [iidSpinTiltsKw, made_kw spinTiltCls_clean, made_kw spinTiltCls_clean, both_do, e2]
  · rw [iidComponentMassesKw, made_kw massCls_clean, made_kw massCls_clean, both_do, e4]
  · rw [primaryPowerlawRatioKw, made_pos massCls_clean, e4]
  · rw [plPeakPrimaryRatioKw, made_pos ratioCls_clean, e2]

/-- **C137** (mass and ratio).  The mass model has the range from `m1min` to `mmax`, the ratio model that from `m2min / mmax` to 1, unless a dictionary says otherwise. -/
theorem C137_primary_ratio (nm nq m1 m1i q qi : KwVal) {mmax m1min m2min : ℝ} (h : mmax ≠ 0) (dm dq d : Kw) :
    primaryRatioKw nm nq m1 m1i q qi mmax m1min m2min dm dq d =
      both (massCls.made nm m1 m1i ([("mmin", .num m1min), ("mmax", .num mmax)] ++ dm ++ d)) (ratioCls.made nq q qi ([("qmin", .num (m2min / mmax))] ++ dq ++ d)) := by
  have e3 : ∀ o a b : Kw, o ++ [a, b].flatten = o ++ a ++ b := by intro o a b; simp
  rw [primaryRatioKw, made_pos massCls_clean, e3, ← both_do]
  congr 1
  funext p
  simp only [if_neg h, bind, Except.bind]
  rw [made_pos ratioCls_clean, e3]

/-- **C137** (no keywords).  Without keywords: cubic splines with default knots on the documented ranges, in the documented bases. -/
theorem C137_defaults (n1 n2 x1 x2 y1 y2 : KwVal) (lo hi : ℝ) :
    independentSpinMagnitudesKw n1 n2 x1 x2 y1 y2 [] [] [] =
      .ok (⟨⟨.logY, n1, .pyNone, .pyNone, .tup (.num 0) (.num 1), .int 4, .flag true⟩, x1, y1, .num 0, .num 1⟩,
        ⟨⟨.logY, n2, .pyNone, .pyNone, .tup (.num 0) (.num 1), .int 4, .flag true⟩, x2, y2, .num 0, .num 1⟩) ∧
    independentSpinTiltsKw n1 n2 x1 x2 y1 y2 [] [] [] =
      .ok (⟨⟨.logY, n1, .pyNone, .pyNone, .tup (.num (-1)) (.num 1), .int 4, .flag true⟩, x1, y1, .num (-1), .num 1⟩,
        ⟨⟨.logY, n2, .pyNone, .pyNone, .tup (.num (-1)) (.num 1), .int 4, .flag true⟩, x2, y2, .num (-1), .num 1⟩) ∧
    effectiveSpinDimsKw n1 n2 x1 x2 y1 y2 [] [] [] =
      .ok (⟨⟨.bSpline, n1, .pyNone, .pyNone, .tup (.num (-1)) (.num 1), .int 4, .flag false⟩, x1, y1, .num (-1), .num 1⟩,
        ⟨⟨.bSpline, n2, .pyNone, .pyNone, .tup (.num 0) (.num 1), .int 4, .flag false⟩, x2, y2, .num 0, .num 1⟩) ∧
    iidComponentMassesKw n1 x1 x2 y1 y2 (.num lo) (.num hi) [] =
      .ok (⟨⟨.logXLogY, n1, .pyNone, .pyNone, .tup (.num lo) (.num hi), .int 4, .flag true⟩, x1, y1, .num lo, .num hi⟩,
        ⟨⟨.logXLogY, n1, .pyNone, .pyNone, .tup (.num lo) (.num hi), .int 4, .flag true⟩, x2, y2, .num lo, .num hi⟩) ∧
    plPeakPrimaryRatioKw n1 x1 y1 [] = .ok ⟨⟨.logY, n1, .pyNone, .pyNone, .tup (.int 0) (.int 1), .int 4, .flag true⟩, x1, y1, .int 0, .int 1⟩ := by
  have h := C137_components n1 n2 x1 x2 y1 y2 (.num lo) (.num hi) (.num lo) (.num hi) [] [] []
  obtain ⟨h1, h2, -, h4, -, -, h7, -, h9⟩ := h
  rw [h1, h2, h4, h7, h9]
  refine ⟨?_, ?_, ?_, ?_, ?_⟩
  all_goals
    simp [Single.made, Single.spec, specModel, both, opt, PyDict.get?, PyDict.keys, spinMagnitudeCls, spinTiltCls, chiEffectiveCls, chiPrecessCls, massCls, ratioCls, modelKeys, BasisCls.normalizes]

/-- **C137** (ranges of mass and ratio).  Without keywords the mass model lives on `(m1min, mmax)` and the ratio model on `(m2min / mmax, 1)`; a maximum mass of zero is a `ZeroDivisionError`. -/
theorem C137_ranges (nm nq m1 m1i q qi : KwVal) (mmax m1min m2min : ℝ) :
    primaryRatioKw nm nq m1 m1i q qi mmax m1min m2min [] [] [] =
      if mmax = 0 then .error .zeroDivisionError else
      .ok (⟨⟨.logXLogY, nm, .pyNone, .pyNone, .tup (.num m1min) (.num mmax), .int 4, .flag true⟩, m1, m1i, .num m1min, .num mmax⟩,
        ⟨⟨.logY, nq, .pyNone, .pyNone, .tup (.num (m2min / mmax)) (.int 1), .int 4, .flag true⟩, q, qi, .num (m2min / mmax), .int 1⟩) := by
  by_cases h : mmax = 0
  · have e3 : ∀ o : Kw, o ++ [([] : Kw), []].flatten = o := by intro o; simp
    rw [primaryRatioKw, made_pos massCls_clean, e3, if_pos h]
    simp [Single.made, Single.spec, specModel, opt, PyDict.get?, PyDict.keys, massCls, modelKeys, h, bind, Except.bind]
  · rw [C137_primary_ratio nm nq m1 m1i q qi h, if_neg h]
    simp [Single.made, Single.spec, specModel, both, opt, PyDict.get?, PyDict.keys, massCls, ratioCls, modelKeys, BasisCls.normalizes]

/-- **C137** (private dictionaries are private).  The second component does not depend on the dictionary of the first, nor the first on that of the second. -/
theorem C137_private (n1 n2 x1 x2 y1 y2 : KwVal) (d1 d1' d2 d2' d : Kw) {r r' : Model1 × Model1} :
    (independentSpinMagnitudesKw n1 n2 x1 x2 y1 y2 d1 d2 d = .ok r → independentSpinMagnitudesKw n1 n2 x1 x2 y1 y2 d1' d2 d = .ok r' → r.2 = r'.2) ∧
    (independentSpinMagnitudesKw n1 n2 x1 x2 y1 y2 d1 d2 d = .ok r → independentSpinMagnitudesKw n1 n2 x1 x2 y1 y2 d1 d2' d = .ok r' → r.1 = r'.1) ∧
    (effectiveSpinDimsKw n1 n2 x1 x2 y1 y2 d1 d2 d = .ok r → effectiveSpinDimsKw n1 n2 x1 x2 y1 y2 d1' d2 d = .ok r' → r.2 = r'.2) ∧
    (effectiveSpinDimsKw n1 n2 x1 x2 y1 y2 d1 d2 d = .ok r → effectiveSpinDimsKw n1 n2 x1 x2 y1 y2 d1 d2' d = .ok r' → r.1 = r'.1) := by
  have e1 := fun d1 d2 => (C137_components n1 n2 x1 x2 y1 y2 .pyNone .pyNone .pyNone .pyNone d1 d2 d).1
  have e2 := fun d1 d2 => (C137_components n1 n2 x1 x2 y1 y2 .pyNone .pyNone .pyNone .pyNone d1 d2 d).2.2.2.1
  have key : ∀ p s r, both p s = .ok r → p = .ok r.1 ∧ s = .ok r.2 := by
    intro p s r h
    cases p <;> cases s <;> simp [both] at h
    subst h
    simp
  simp only [e1, e2]
  refine ⟨fun h h' => ?_, fun h h' => ?_, fun h h' => ?_, fun h h' => ?_⟩
  · have := (key _ _ _ h).2.symm.trans (key _ _ _ h').2; simpa using this
  · have := (key _ _ _ h).1.symm.trans (key _ _ _ h').1; simpa using this
  · have := (key _ _ _ h).2.symm.trans (key _ _ _ h').2; simpa using this
  · have := (key _ _ _ h).1.symm.trans (key _ _ _ h').1; simpa using this

theorem made_dup {S : Single} (n x y : KwVal) {a b : Kw} {k : String} (ha : k ∈ a.keys) (hb : k ∈ b.keys) : S.made n x y (a ++ b) = .error .typeError := by
  unfold Single.made
  rw [if_neg]
  rintro ⟨h, -⟩
  rw [kw_keys_append] at h
  exact (List.nodup_append.1 h).2.2 k ha k hb rfl

/-- **C137** is false of overriding: a keyword given for all components cannot be set differently for one of them.  Whatever the values, `TypeError`. -/
theorem C137_override_fails (n1 n2 x1 x2 y1 y2 lo1 hi1 lo2 hi2 : KwVal) (d1 d2 d : Kw) {k : String} (h1 : k ∈ d1.keys) (h : k ∈ d.keys) :
    independentSpinMagnitudesKw n1 n2 x1 x2 y1 y2 d1 d2 d = .error .typeError ∧ independentSpinTiltsKw n1 n2 x1 x2 y1 y2 d1 d2 d = .error .typeError ∧
    effectiveSpinDimsKw n1 n2 x1 x2 y1 y2 d1 d2 d = .error .typeError ∧ independentComponentMassesKw n1 n2 x1 x2 y1 y2 lo1 hi1 lo2 hi2 d1 d2 d = .error .typeError := by
  obtain ⟨e1, e2, e3, e4, -⟩ := C137_components n1 n2 x1 x2 y1 y2 lo1 hi1 lo2 hi2 d1 d2 d
  rw [e1, e2, e3, e4, made_dup (S := spinMagnitudeCls) _ _ _ h1 h, made_dup (S := spinTiltCls) _ _ _ h1 h, made_dup (S := chiEffectiveCls) _ _ _ h1 h,
    made_dup (S := massCls) _ _ _ (by rw [kw_keys_append]; exact List.mem_append_right _ h1) h]
  exact ⟨rfl, rfl, rfl, rfl⟩

/-- **C137** is false of a shared range: `xrange` given to `BSplinePrimaryBSplineRatio` is taken for the mass and for the mass ratio alike, and the limits `m1min`, `m2min` and `mmax` are ignored
without a message. -/
theorem C137_shared_range_fails (nm nq m1 m1i q qi : KwVal) {mmax m1min m2min : ℝ} (h : mmax ≠ 0) (lo hi : ℝ) :
    ∃ p r, primaryRatioKw nm nq m1 m1i q qi mmax m1min m2min [] [] [("xrange", .tup (.num lo) (.num hi))] = .ok (p, r) ∧
      p.xmin = .num lo ∧ p.xmax = .num hi ∧ r.xmin = .num lo ∧ r.xmax = .num hi := by
  rw [C137_primary_ratio nm nq m1 m1i q qi h]
  simp [Single.made, Single.spec, specModel, both, opt, PyDict.get?, PyDict.keys, massCls, ratioCls, modelKeys]

/-- **C137** is false of the limits: with `xrange` in the dictionary of one component, its mass limits are ignored without a message. -/
theorem C137_limits_ignored_fails (n1 n2 x1 x2 y1 y2 lo1 hi1 lo1' hi1' lo2 hi2 : KwVal) (a b : KwVal) :
    independentComponentMassesKw n1 n2 x1 x2 y1 y2 lo1 hi1 lo2 hi2 [("xrange", .tup a b)] [] [] =
      independentComponentMassesKw n1 n2 x1 x2 y1 y2 lo1' hi1' lo2 hi2 [("xrange", .tup a b)] [] [] ∧
    ∃ r, independentComponentMassesKw n1 n2 x1 x2 y1 y2 lo1 hi1 lo2 hi2 [("xrange", .tup a b)] [] [] = .ok r ∧ r.1.xmin = a ∧ r.1.xmax = b ∧ r.2.xmin = lo2 ∧ r.2.xmax = hi2 := by
  rw [(C137_components n1 n2 x1 x2 y1 y2 lo1 hi1 lo2 hi2 [("xrange", .tup a b)] [] []).2.2.1, (C137_components n1 n2 x1 x2 y1 y2 lo1' hi1' lo2 hi2 [("xrange", .tup a b)] [] []).2.2.1]
  simp [Single.made, Single.spec, specModel, both, opt, PyDict.get?, PyDict.keys, massCls, modelKeys, BasisCls.normalizes]

/-- **C137** is false of the order: the keyword `k` of the basis classes, documented there, is refused by every model with `TypeError`; the order is set by `degree`. -/
theorem C137_order_fails {S : Single} (hS : S.Clean) (hk : "k" ∉ PyDict.keys S.extra) (n x xi : KwVal) (own : Kw) (v : KwVal) :
    S.callKw n x xi own [[("k", v)]] = .error .typeError := by
  rw [made_kw hS]
  unfold Single.made
  rw [if_neg]
  rintro ⟨-, h⟩
  have := h "k" (by simp [PyDict.keys])
  rcases List.mem_append.1 this with h | h
  · simp [modelKeys] at h
  · exact hk h

/-- quadratic splines for the first spin, a shared basis: within the hypotheses, and the result -/
example (n1 n2 x1 x2 y1 y2 : KwVal) :
    independentSpinMagnitudesKw n1 n2 x1 x2 y1 y2 [("degree", .int 2)] [] [("basis", .cls .bSpline)] =
      .ok (⟨⟨.bSpline, n1, .pyNone, .pyNone, .tup (.num 0) (.num 1), .int 3, .flag false⟩, x1, y1, .num 0, .num 1⟩,
        ⟨⟨.bSpline, n2, .pyNone, .pyNone, .tup (.num 0) (.num 1), .int 4, .flag false⟩, x2, y2, .num 0, .num 1⟩) := by
  rw [(C137_components n1 n2 x1 x2 y1 y2 .pyNone .pyNone .pyNone .pyNone _ _ _).1]
  simp [Single.made, Single.spec, specModel, both, opt, PyDict.get?, PyDict.keys, spinMagnitudeCls, modelKeys, BasisCls.normalizes]

/-- a keyword given twice -/
example (n1 n2 x1 x2 y1 y2 : KwVal) : independentSpinMagnitudesKw n1 n2 x1 x2 y1 y2 [("degree", .int 2)] [] [("degree", .int 3)] = .error .typeError :=
  (C137_override_fails n1 n2 x1 x2 y1 y2 .pyNone .pyNone .pyNone .pyNone _ [] _ (k := "degree") (by simp [PyDict.keys]) (by simp [PyDict.keys])).1

end GW
end
