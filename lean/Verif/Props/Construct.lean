import Verif.Model.Construct
import Verif.Props.Likelihood
import Verif.Props.PPC

/-!
# C50, C51, C78: models built from configuration dictionaries
-/

noncomputable section
open Classical
namespace GW
open F

/-! ## Specification -/

/-- the value of a hyper-parameter in a run: the draw, or the fixed value -/
def HyperVal {V : Type} (prior_dict : PyDict (Prior V)) (draw : String → V) (key : String) (v : V) : Prop :=
  (∃ dist params, prior_dict.get? key = some (.prior dist params) ∧ v = draw key) ∨ prior_dict.get? key = some (.fixed v)

/-- the class can be called with exactly these keyword names -/
def Callable {V : Type} (c : Cls V) (names : List String) : Prop :=
  (∀ k ∈ names, k ∈ c.accepts) ∧ ∀ k ∈ c.required, k ∈ names

/-- `Evaluates … k s d`: the entry `s` of parameter `k` denotes the distribution `d` -/
inductive Evaluates {V : Type} (prior_dict : PyDict (Prior V)) (draw : String → V) (zgrid : V) (k : String) :
    Spec V → Dist → Prop where
  | pop (c : Cls V) (params : List String) (v : String → V) (hk : k ≠ "redshift") (hc : Callable c params)
      (hv : ∀ p ∈ params, HyperVal prior_dict draw (k ++ "_" ++ p) (v p)) :
      Evaluates prior_dict draw zgrid k (.pop c params) (c.build (params.map fun p => (p, v p)))
  | redshift (c : Cls V) (params : List String) (v : String → V) (hk : k = "redshift") (hg : "grid" ∉ params)
      (hc : Callable c (params ++ ["grid"])) (hv : ∀ p ∈ params, HyperVal prior_dict draw (k ++ "_" ++ p) (v p)) :
      Evaluates prior_dict draw zgrid k (.pop c params) (c.build ((params.map fun p => (p, v p)) ++ [("grid", zgrid)]))
  | mixture (model : Dist → List Dist → Dist) (m : Cls V) (mp : List String) (comps : List (Cls V × List String))
      (v : String → V) (w : ℕ → String → V) (hm : Callable m mp)
      (hv : ∀ p ∈ mp, HyperVal prior_dict draw (k ++ "_mixture_dist_" ++ p) (v p))
      (hc : ∀ c ∈ comps, Callable c.1 c.2)
      (hw : ∀ ic ∈ comps.zipIdx 1, ∀ p ∈ ic.1.2, HyperVal prior_dict draw (s!"{k}_component_{ic.2}_" ++ p) (w ic.2 p)) :
      Evaluates prior_dict draw zgrid k (.mixture model m mp comps)
        (model (m.build (mp.map fun p => (p, v p)))
          ((comps.zipIdx 1).map fun ic => ic.1.1.build (ic.1.2.map fun p => (p, w ic.2 p))))

/-! ## Lemmas -/

theorem hyperValues_get {V : Type} {prior_dict : PyDict (Prior V)} {draw : String → V} {key : String} {v : V}
    (h : HyperVal prior_dict draw key v) : (hyperValues prior_dict draw).get? key = some v := by
  unfold HyperVal at h
  induction prior_dict with
  | nil => simp at h
  | cons p d ih =>
    obtain ⟨a, b⟩ := p
    simp only [PyDict.get?] at h
    simp only [hyperValues, List.map_cons, PyDict.get?]
    by_cases hk : a = key
    · subst hk
      simp only [if_true, Option.some.injEq] at h ⊢
      rcases h with ⟨_, _, h, h'⟩ | h
      · subst h; simp [h']
      · subst h; rfl
    · simp only [hk, if_false] at h ⊢
      exact ih h

theorem kwargsOf_ok {V : Type} {hyper : PyDict V} {pre : String} {ps : List String} {v : String → V}
    (h : ∀ p ∈ ps, hyper.get? (pre ++ p) = some (v p)) : kwargsOf hyper pre ps = .ok (ps.map fun p => (p, v p)) := by
  induction ps with
  | nil => rfl
  | cons p ps ih =>
    simp only [kwargsOf, dictGet, h p (by simp), ih (fun q hq => h q (by simp [hq])), List.map_cons]

theorem keys_map_fun {V : Type} (ps : List String) (v : String → V) :
    PyDict.keys (ps.map fun p => (p, v p)) = ps := by
  simp [PyDict.keys, Function.comp_def]

theorem set_append {V : Type} (d : PyDict V) (k : String) (v : V) (h : k ∉ d.keys) : d.set k v = d ++ [(k, v)] := by
  induction d with
  | nil => rfl
  | cons p d ih =>
    obtain ⟨a, b⟩ := p
    simp only [PyDict.keys, List.map_cons, List.mem_cons, not_or] at h
    simp only [PyDict.set, Ne.symm h.1, if_false, List.cons_append]
    rw [ih h.2]

theorem call_ok {V : Type} {c : Cls V} {kw : PyDict V} (h : Callable c kw.keys) : c.call kw = .ok (c.build kw) := by
  unfold Cls.call; rw [if_pos h.1, if_pos h.2]

theorem mkComponents_ok {V : Type} {prior_dict : PyDict (Prior V)} {draw : String → V} {k : String}
    {w : ℕ → String → V} : ∀ (comps : List (Cls V × List String)) (n : ℕ), (∀ c ∈ comps, Callable c.1 c.2) →
      (∀ ic ∈ comps.zipIdx n, ∀ p ∈ ic.1.2, HyperVal prior_dict draw (s!"{k}_component_{ic.2}_" ++ p) (w ic.2 p)) →
      mkComponents (hyperValues prior_dict draw) k n comps
        = .ok ((comps.zipIdx n).map fun ic => ic.1.1.build (ic.1.2.map fun p => (p, w ic.2 p))) := by
  intro comps
  induction comps with
  | nil => intro n _ _; rfl
  | cons c cs ih =>
    intro n hc hw
    have h1 : kwargsOf (hyperValues prior_dict draw) s!"{k}_component_{n}_" c.2 = .ok (c.2.map fun p => (p, w n p)) :=
      kwargsOf_ok fun p hp => hyperValues_get (hw (c, n) (by simp [List.zipIdx_cons]) p hp)
    have h2 : c.1.call (c.2.map fun p => (p, w n p)) = .ok (c.1.build (c.2.map fun p => (p, w n p))) :=
      call_ok (by rw [keys_map_fun]; exact hc c (by simp))
    simp only [mkComponents, h1, h2, ih (n + 1) (fun c' h' => hc c' (by simp [h']))
      (fun ic h' => hw ic (by rw [List.zipIdx_cons]; exact List.mem_cons_of_mem _ h')), List.zipIdx_cons, List.map_cons]

theorem evalSpec_ok {V : Type} {prior_dict : PyDict (Prior V)} {draw : String → V} {zgrid : V} {k : String} {s : Spec V}
    {d : Dist} (h : Evaluates prior_dict draw zgrid k s d) :
    evalSpec (hyperValues prior_dict draw) zgrid k s = .ok (some d) := by
  cases h with
  | pop c params v hk hc hv =>
    have h1 : kwargsOf (hyperValues prior_dict draw) s!"{k}_" params = .ok (params.map fun p => (p, v p)) :=
      kwargsOf_ok fun p hp => hyperValues_get (hv p hp)
    have h2 := call_ok (c := c) (kw := params.map fun p => (p, v p)) (by rw [keys_map_fun]; exact hc)
    simp only [evalSpec, h1, hk, if_false, h2]
  | redshift c params v hk hg hc hv =>
    have h1 : kwargsOf (hyperValues prior_dict draw) s!"{k}_" params = .ok (params.map fun p => (p, v p)) :=
      kwargsOf_ok fun p hp => hyperValues_get (hv p hp)
    have h2 := call_ok (c := c) (kw := (params.map fun p => (p, v p)) ++ [("grid", zgrid)]) (by
      have : PyDict.keys ((params.map fun p => (p, v p)) ++ [("grid", zgrid)]) = params ++ ["grid"] := by
        simp [PyDict.keys, Function.comp_def]
      rw [this]; exact hc)
    have h3 : PyDict.set (params.map fun p => (p, v p)) "grid" zgrid = (params.map fun p => (p, v p)) ++ [("grid", zgrid)] :=
      set_append _ _ _ (by rw [keys_map_fun]; exact hg)
    subst hk
    simp only [evalSpec, h1, if_true, h3, h2]
  | mixture model m mp comps v w hm hv hc hw =>
    have h1 : kwargsOf (hyperValues prior_dict draw) s!"{k}_mixture_dist_" mp = .ok (mp.map fun p => (p, v p)) :=
      kwargsOf_ok fun p hp => hyperValues_get (hv p hp)
    have h2 := call_ok (c := m) (kw := mp.map fun p => (p, v p)) (by rw [keys_map_fun]; exact hm)
    simp only [evalSpec, mkComponents_ok comps 1 hc hw, h1, h2]

/-! ### invariants -/

/-- parameters configured as shared have no model of their own -/
def SharedNone {V : Type} (model_dict : PyDict (Spec V)) (pop : PyDict (Option Dist)) : Prop :=
  ∀ k v, (k, Spec.shared v) ∈ model_dict → pop.get? k = some none

/-- `iid_mapping` maps targets to keys of string entries -/
def IidOK {V : Type} (model_dict : PyDict (Spec V)) (iid : PyDict String) : Prop :=
  ∀ a b, (a, b) ∈ iid → (b, Spec.shared a) ∈ model_dict

theorem mem_set {α : Type} {d : PyDict α} {k a : String} {v b : α} (h : (a, b) ∈ d.set k v) :
    (a, b) ∈ d ∨ (a = k ∧ b = v) := by
  induction d with
  | nil => simp [PyDict.set] at h; exact Or.inr h
  | cons p d ih =>
    obtain ⟨x, y⟩ := p
    simp only [PyDict.set] at h
    by_cases hx : x = k
    · simp only [hx, if_true, List.mem_cons, Prod.mk.injEq] at h
      rcases h with h | h
      · exact Or.inr h
      · exact Or.inl (List.mem_cons_of_mem _ h)
    · simp only [hx, if_false, List.mem_cons] at h
      rcases h with h | h
      · exact Or.inl (by rw [h]; exact List.mem_cons_self)
      · rcases ih h with h' | h'
        · exact Or.inl (List.mem_cons_of_mem _ h')
        · exact Or.inr h'

theorem loopStep_cases {V : Type} (hyper : PyDict V) (zgrid : V) (st : LoopSt) (kv : String × Spec V) :
    loopStep hyper zgrid st kv = st ∨ (∃ v, kv.2 = .shared v ∧ loopStep hyper zgrid st kv = { st with iid := st.iid.set v kv.1 }) ∨
    (∃ e, loopStep hyper zgrid st kv = { st with err := some e }) ∨
    ((∀ v, kv.2 ≠ .shared v) ∧ ∃ d, evalSpec hyper zgrid kv.1 kv.2 = .ok d ∧
      loopStep hyper zgrid st kv = { st with pop := st.pop.set kv.1 d }) := by
  unfold loopStep
  cases he : st.err with
  | some e => exact Or.inl rfl
  | none =>
    obtain ⟨k, s⟩ := kv
    cases s with
    | shared v => exact Or.inr (Or.inl ⟨v, rfl, rfl⟩)
    | mixture a b c d =>
      cases hs : evalSpec hyper zgrid k (.mixture a b c d) with
      | error e => exact Or.inr (Or.inr (Or.inl ⟨e, by simp only [hs]⟩))
      | ok d => exact Or.inr (Or.inr (Or.inr ⟨by simp, d, rfl, by simp only [hs]⟩))
    | pop a b =>
      cases hs : evalSpec hyper zgrid k (.pop a b) with
      | error e => exact Or.inr (Or.inr (Or.inl ⟨e, by simp only [hs]⟩))
      | ok d => exact Or.inr (Or.inr (Or.inr ⟨by simp, d, rfl, by simp only [hs]⟩))
    | other =>
      cases hs : evalSpec hyper zgrid k .other with
      | error e => exact Or.inr (Or.inr (Or.inl ⟨e, by simp only [hs]⟩))
      | ok d => exact Or.inr (Or.inr (Or.inr ⟨by simp, d, rfl, by simp only [hs]⟩))

theorem nodup_unique {V : Type} {d : PyDict V} (hd : d.keys.Nodup) {k : String} {a b : V} (ha : (k, a) ∈ d) (hb : (k, b) ∈ d) :
    a = b := by
  have h1 := PyDict.get?_of_mem hd ha
  have h2 := PyDict.get?_of_mem hd hb
  rw [h1] at h2; exact Option.some.inj h2

theorem loop_inv {V : Type} {model_dict : PyDict (Spec V)} (hd : model_dict.keys.Nodup) (hyper : PyDict V) (zgrid : V) :
    ∀ (l : List (String × Spec V)), (∀ x ∈ l, x ∈ model_dict) → ∀ st : LoopSt, SharedNone model_dict st.pop →
      IidOK model_dict st.iid → SharedNone model_dict (l.foldl (loopStep hyper zgrid) st).pop ∧
      IidOK model_dict (l.foldl (loopStep hyper zgrid) st).iid := by
  intro l
  induction l with
  | nil => intro _ st h1 h2; exact ⟨h1, h2⟩
  | cons kv l ih =>
    intro hl st h1 h2
    rw [List.foldl_cons]
    have hkv := hl kv (by simp)
    refine ih (fun x hx => hl x (by simp [hx])) _ ?_ ?_
    · rcases loopStep_cases hyper zgrid st kv with h | ⟨v, _, h⟩ | ⟨e, h⟩ | ⟨hn, d, _, h⟩ <;> rw [h]
      · exact h1
      · exact h1
      · exact h1
      · intro k v hk
        have : k ≠ kv.1 := by
          intro e; subst e
          exact hn v (nodup_unique hd (k := kv.1) (a := kv.2) (b := .shared v) hkv hk)
        exact (PyDict.get?_set_ne _ _ this).trans (h1 k v hk)
    · rcases loopStep_cases hyper zgrid st kv with h | ⟨v, hv, h⟩ | ⟨e, h⟩ | ⟨hn, d, _, h⟩ <;> rw [h]
      · exact h2
      · intro a b hab
        rcases mem_set hab with h' | ⟨rfl, rfl⟩
        · exact h2 a b h'
        · rw [← hv]; exact hkv
      · exact h2
      · exact h2

theorem iid_inv {V : Type} {model_dict : PyDict (Spec V)} : ∀ (l : List (String × String)), (IidOK model_dict l) →
    ∀ st : LoopSt, SharedNone model_dict st.pop → SharedNone model_dict (l.foldl iidStep st).pop := by
  intro l
  induction l with
  | nil => intro _ st h; exact h
  | cons kv l ih =>
    intro hl st h
    rw [List.foldl_cons]
    refine ih (fun a b hab => hl a b (List.mem_cons_of_mem _ hab)) _ ?_
    have hkv := hl kv.1 kv.2 List.mem_cons_self
    unfold iidStep
    cases st.err with
    | some e => exact h
    | none =>
      simp only [dictGet, h _ _ hkv]
      intro k v hk
      by_cases e : k = kv.1
      · subst e; exact PyDict.get?_set_self _ _ _
      · exact (PyDict.get?_set_ne _ _ e).trans (h k v hk)

theorem build_inv {V : Type} {model_dict : PyDict (Spec V)} (hd : model_dict.keys.Nodup) (prior_dict : PyDict (Prior V))
    (zgrid : V) (draw : String → V) (pop : PyDict (Option Dist)) (h : SharedNone model_dict pop) :
    SharedNone model_dict (buildModels model_dict prior_dict zgrid draw pop).pop := by
  unfold buildModels
  have := loop_inv hd (hyperValues prior_dict draw) zgrid model_dict (fun _ h => h) ⟨pop, [], none⟩ h
    (fun a b hab => by simp at hab)
  exact iid_inv _ this.2 _ this.1

theorem modelCall_pop {V : Type} {E N M : ℕ} (cf : ConstructFlags) (model_dict : PyDict (Spec V))
    (prior_dict : PyDict (Prior V)) (zgrid : V) (pop : PyDict (Option Dist)) (env : CallEnv V E N M) :
    (modelCall cf model_dict prior_dict zgrid pop env).1 = (buildModels model_dict prior_dict zgrid env.draw pop).pop := by
  unfold modelCall
  simp only
  split <;> rfl

theorem get?_map_none {V : Type} (model_dict : PyDict (Spec V)) (k : String) :
    PyDict.get? (model_dict.map fun kv => (kv.1, (none : Option Dist))) k = if k ∈ model_dict.keys then some none else none := by
  induction model_dict with
  | nil => simp [PyDict.keys]
  | cons p d ih =>
    obtain ⟨a, b⟩ := p
    simp only [List.map_cons, PyDict.get?, PyDict.keys, List.mem_cons]
    by_cases h : a = k
    · simp [h]
    · simp only [h, if_false, Ne.symm h, false_or]; exact ih

theorem reachable_sharedNone {V : Type} {E N M : ℕ} {cf : ConstructFlags} {model_dict : PyDict (Spec V)}
    (hd : model_dict.keys.Nodup) {prior_dict : PyDict (Prior V)} {zgrid : V} {pop : PyDict (Option Dist)}
    (h : Reachable (E := E) (N := N) (M := M) cf model_dict prior_dict zgrid pop) : SharedNone model_dict pop := by
  induction h with
  | init =>
    intro k v hk
    have hm : k ∈ model_dict.keys := List.mem_map.2 ⟨_, hk, rfl⟩
    rw [get?_map_none, if_pos hm]
  | call pop env _ ih => rw [modelCall_pop]; exact build_inv hd _ _ _ _ ih

theorem logProbs_none {α : Type} {pop : PyDict (Option Dist)} (data : String → Option (α → F)) {names : List String}
    {k : String} (hk : k ∈ names) (h : pop.get? k = some none) : ∃ e, logProbs pop data names = .error e := by
  induction names with
  | nil => simp at hk
  | cons a ks ih =>
    unfold logProbs
    by_cases e : a = k
    · subst e; simp only [dictGet, h]; exact ⟨_, rfl⟩
    · have := ih (by simpa [Ne.symm e] using hk)
      obtain ⟨er, her⟩ := this
      cases h1 : dictGet pop a with
      | error x => exact ⟨_, rfl⟩
      | ok o =>
        cases o with
        | none => exact ⟨_, rfl⟩
        | some d =>
          simp only []
          cases h2 : getKey data a with
          | error x => exact ⟨_, rfl⟩
          | ok x => simp only [her]; exact ⟨_, rfl⟩

/-- **C50 fails**: as soon as one parameter is configured to share another one's model, every call of the model
function raises, for every data set, every prior and every history of previous calls. -/
theorem C50_iid_sharing_fails {V : Type} {E N M : ℕ} (cf : ConstructFlags) (model_dict : PyDict (Spec V))
    (hd : model_dict.keys.Nodup) (prior_dict : PyDict (Prior V)) (zgrid : V) (k v : String)
    (hk : (k, Spec.shared v) ∈ model_dict) (pop : PyDict (Option Dist))
    (hr : Reachable (E := E) (N := N) (M := M) cf model_dict prior_dict zgrid pop) (env : CallEnv V E N M) :
    ∃ e, (modelCall cf model_dict prior_dict zgrid pop env).2.2 = .error e := by
  have hs := build_inv hd prior_dict zgrid env.draw pop (reachable_sharedNone hd hr)
  unfold modelCall
  simp only
  split
  · exact ⟨_, rfl⟩
  · obtain ⟨e, he⟩ := logProbs_none env.injs (names := model_dict.keys) (List.mem_map.2 ⟨_, hk, rfl⟩) (hs k v hk)
    refine ⟨e, ?_⟩
    simp only [evalModel, popWeights, he]

/-- the class of the redshift entry cannot be called: the loop ends with an exception -/
theorem loop_err_mono {V : Type} (hyper : PyDict V) (zgrid : V) (l : List (String × Spec V)) (st : LoopSt) (e : PyErr)
    (h : st.err = some e) : l.foldl (loopStep hyper zgrid) st = st := by
  induction l with
  | nil => rfl
  | cons a l ih =>
    rw [List.foldl_cons, show loopStep hyper zgrid st a = st by unfold loopStep; rw [h]]
    exact ih

theorem iid_err_mono (l : List (String × String)) (st : LoopSt) (e : PyErr)
    (h : st.err = some e) : l.foldl iidStep st = st := by
  induction l with
  | nil => rfl
  | cons a l ih =>
    rw [List.foldl_cons, show iidStep st a = st by unfold iidStep; rw [h]]
    exact ih

theorem loop_err_of {V : Type} (hyper : PyDict V) (zgrid : V) {k : String} {s : Spec V} (hns : ∀ v, s ≠ .shared v)
    (he : ∃ e, evalSpec hyper zgrid k s = .error e) : ∀ (l : List (String × Spec V)), (k, s) ∈ l → ∀ st : LoopSt,
      ∃ e, (l.foldl (loopStep hyper zgrid) st).err = some e := by
  intro l
  induction l with
  | nil => intro h; simp at h
  | cons a l ih =>
    intro h st
    rw [List.foldl_cons]
    rcases List.mem_cons.1 h with h | h
    · subst h
      cases hst : st.err with
      | some e0 =>
        have : loopStep hyper zgrid st (k, s) = st := by unfold loopStep; rw [hst]
        rw [this, loop_err_mono _ _ _ _ _ hst]; exact ⟨e0, hst⟩
      | none =>
        obtain ⟨e, he⟩ := he
        have : loopStep hyper zgrid st (k, s) = { st with err := some e } := by
          unfold loopStep
          rw [hst]
          cases s with
          | shared v => exact absurd rfl (hns v)
          | mixture a b c d => simp only [he]
          | pop a b => simp only [he]
          | other => simp only [he]
        rw [this, loop_err_mono _ _ _ _ e rfl]; exact ⟨e, rfl⟩
    · exact ih h _

/-- **C51 fails**: a redshift entry whose class does not accept a keyword `grid` makes every call raise, whatever the
other entries, priors, data and history. -/
theorem C51_class_without_grid_fails {V : Type} {E N M : ℕ} (cf : ConstructFlags) (model_dict : PyDict (Spec V))
    (prior_dict : PyDict (Prior V)) (zgrid : V) (c : Cls V) (params : List String)
    (hk : ("redshift", Spec.pop c params) ∈ model_dict) (hc : "grid" ∉ c.accepts) (pop : PyDict (Option Dist))
    (env : CallEnv V E N M) : ∃ e, (modelCall cf model_dict prior_dict zgrid pop env).2.2 = .error e := by
  have h1 : ∃ e, evalSpec (hyperValues prior_dict env.draw) zgrid "redshift" (.pop c params) = .error e := by
    simp only [evalSpec]
    cases h : kwargsOf (hyperValues prior_dict env.draw) s!"{"redshift"}_" params with
    | error e => exact ⟨e, by simp only []⟩
    | ok kw =>
      simp only [if_true]
      have : c.call (kw.set "grid" zgrid) = .error .typeError := by
        unfold Cls.call
        rw [if_neg]
        intro hall
        exact hc (hall "grid" ((PyDict.mem_keys_set _ _ _ _).2 (Or.inl rfl)))
      rw [this]; exact ⟨_, rfl⟩
  obtain ⟨e, he⟩ := loop_err_of _ zgrid (by simp) h1 model_dict hk ⟨pop, [], none⟩
  have : (buildModels model_dict prior_dict zgrid env.draw pop).err = some e := by
    unfold buildModels
    simp only
    rw [iid_err_mono _ _ _ he]; exact he
  unfold modelCall
  simp only [this]
  exact ⟨e, rfl⟩

/-- **C51 fails** for the redshift class the library ships (and its example configuration names). -/
theorem C51_powerlaw_redshift_fails {V : Type} {E N M : ℕ} (cf : ConstructFlags) (model_dict : PyDict (Spec V))
    (prior_dict : PyDict (Prior V)) (zgrid : V) (build : PyDict V → Dist) (params : List String)
    (hk : ("redshift", Spec.pop (powerlawRedshiftCls V build) params) ∈ model_dict) (pop : PyDict (Option Dist))
    (env : CallEnv V E N M) : ∃ e, (modelCall cf model_dict prior_dict zgrid pop env).2.2 = .error e :=
  C51_class_without_grid_fails cf model_dict prior_dict zgrid _ params hk (by simp [powerlawRedshiftCls]) pop env

/-! ### runs that succeed -/

theorem loop_ok {V : Type} {prior_dict : PyDict (Prior V)} {draw : String → V} {zgrid : V} (d : String → Dist) :
    ∀ (l : List (String × Spec V)), (∀ k s, (k, s) ∈ l → Evaluates prior_dict draw zgrid k s (d k)) → ∀ st : LoopSt,
      st.err = none → (l.foldl (loopStep (hyperValues prior_dict draw) zgrid) st).err = none ∧
      (l.foldl (loopStep (hyperValues prior_dict draw) zgrid) st).iid = st.iid ∧
      ∀ k, (l.foldl (loopStep (hyperValues prior_dict draw) zgrid) st).pop.get? k
        = if k ∈ PyDict.keys l then some (some (d k)) else st.pop.get? k := by
  intro l
  induction l with
  | nil => intro _ st h; exact ⟨h, rfl, fun k => by simp [PyDict.keys]⟩
  | cons a l ih =>
    intro hl st h
    obtain ⟨k0, s0⟩ := a
    have hev := hl k0 s0 (by simp)
    have hstep : loopStep (hyperValues prior_dict draw) zgrid st (k0, s0) = { st with pop := st.pop.set k0 (some (d k0)) } := by
      unfold loopStep
      rw [h]
      have he := evalSpec_ok hev
      generalize d k0 = dk at hev he
      cases hev <;> simp only [he]
    rw [List.foldl_cons, hstep]
    obtain ⟨i1, i2, i3⟩ := ih (fun k s hks => hl k s (by simp [hks])) { st with pop := st.pop.set k0 (some (d k0)) } h
    refine ⟨i1, i2, fun k => ?_⟩
    rw [i3 k]
    simp only [PyDict.keys, List.map_cons, List.mem_cons]
    by_cases hk : k ∈ List.map Prod.fst l
    · simp [hk]
    · simp only [hk, if_false, or_false]
      rw [PyDict.get?_set]
      by_cases e : k = k0
      · subst e; simp
      · simp [e]

theorem logProbs_ok {α : Type} {pop : PyDict (Option Dist)} {data : String → Option (α → F)} {names : List String}
    {d : String → Dist} {x : String → α → F} (hp : ∀ k ∈ names, pop.get? k = some (some (d k)))
    (hx : ∀ k ∈ names, data k = some (x k)) : logProbs pop data names = .ok (names.map fun k i => (d k).logp (x k i)) := by
  induction names with
  | nil => rfl
  | cons a l ih =>
    simp only [logProbs, dictGet, getKey, hp a (by simp), hx a (by simp),
      ih (fun k hk => hp k (by simp [hk])) (fun k hk => hx k (by simp [hk])), List.map_cons]

/-- **C50/C51** (what holds): when every entry is an ordinary or mixture model whose classes accept their keywords (the
redshift class also `grid`) and the data have all columns, a call — the first or any later one — draws the priors and
then runs the likelihood on the summed log densities minus the log sampling prior, with the redshift model's `norm` as
surveyed volume.  `d k` is the distribution the entry of `k` denotes (`Evaluates`). -/
theorem C51_run_partial {V : Type} {E N M : ℕ} (cf : ConstructFlags) (model_dict : PyDict (Spec V))
    (prior_dict : PyDict (Prior V)) (zgrid : V) (pop : PyDict (Option Dist)) (env : CallEnv V E N M) (d : String → Dist)
    (hd : ∀ k s, (k, s) ∈ model_dict → Evaluates prior_dict env.draw zgrid k s (d k))
    (hz : "redshift" ∈ model_dict.keys) (norm : F) (hn : (d "redshift").norm = some norm)
    (x : String → Fin E → Fin N → F) (xp : Fin E → Fin N → F) (y : String → Fin M → F) (yp : Fin M → F)
    (hx : ∀ k ∈ model_dict.keys, env.samps k = some (x k)) (hxp : env.samps "prior" = some xp)
    (hy : ∀ k ∈ model_dict.keys, env.injs k = some (y k)) (hyp : env.injs "prior" = some yp) :
    ∃ r, r = hierarchical_likelihood
        { reconstruct_rate := true, marginalize_selection := cf.marginalize_selection, min_neff_cut := cf.min_neff_cut,
          max_variance_cut := cf.max_variance_cut, log := true }
        (.single fun e j => (model_dict.keys.map fun k => (d k).logp (x k e j)).sum - log (xp e j))
        (fun i => (model_dict.keys.map fun k => (d k).logp (y k i)).sum - log (yp i))
        env.Ninj env.Nobs env.Tobs (some norm) env.unscaled
        (if cf.posterior_predictive_check then
          some { param_names := model_dict.keys, pedata := env.samps, injdata := env.injs, m1min := 2, m2min := 2,
                 mmax := 100, unif := env.unif }
         else none) ∧
      (modelCall cf model_dict prior_dict zgrid pop env).2 = (priorSites prior_dict ++ r.1, r.2.map fun _ => ()) := by
  refine ⟨_, rfl, ?_⟩
  obtain ⟨i1, i2, i3⟩ := loop_ok d model_dict hd ⟨pop, [], none⟩ rfl
  have hb : buildModels model_dict prior_dict zgrid env.draw pop
      = model_dict.foldl (loopStep (hyperValues prior_dict env.draw) zgrid) ⟨pop, [], none⟩ := by
    unfold buildModels; simp only [i2, List.foldl_nil]
  have hp : ∀ k ∈ model_dict.keys, (buildModels model_dict prior_dict zgrid env.draw pop).pop.get? k = some (some (d k)) := by
    intro k hk; rw [hb, i3 k, if_pos hk]
  have w1 : popWeights (buildModels model_dict prior_dict zgrid env.draw pop).pop env.injs model_dict.keys
      = .ok fun i => (model_dict.keys.map fun k => (d k).logp (y k i)).sum - log (yp i) := by
    simp only [popWeights, logProbs_ok hp hy, getKey, hyp, List.map_map]; rfl
  have w2 : popWeights (buildModels model_dict prior_dict zgrid env.draw pop).pop (uncurryData env.samps) model_dict.keys
      = .ok fun ij => (model_dict.keys.map fun k => (d k).logp (x k ij.1 ij.2)).sum - log (xp ij.1 ij.2) := by
    have hl := logProbs_ok (x := fun k (ij : Fin E × Fin N) => x k ij.1 ij.2) hp
      (data := uncurryData env.samps) (fun k hk => by rw [uncurryData, hx k hk, Option.map_some])
    have hpr : uncurryData env.samps "prior" = some fun ij => xp ij.1 ij.2 := by rw [uncurryData, hxp, Option.map_some]
    simp only [popWeights, hl, getKey, hpr, List.map_map]; rfl
  unfold modelCall
  simp only [show (buildModels model_dict prior_dict zgrid env.draw pop).err = none by rw [hb]; exact i1, evalModel, w1, w2,
    dictGet, hp "redshift" hz, hn]
  rfl

/-- `k` is the first of the columns `names`, then `prior`, that the data lack -/
def FirstMissing {α : Type} (data : String → Option α) (names : List String) (k : String) : Prop :=
  ∃ pre post, names ++ ["prior"] = pre ++ k :: post ∧ (∀ j ∈ pre, data j ≠ none) ∧ data k = none

theorem popWeights_missing {α : Type} {pop : PyDict (Option Dist)} {data : String → Option (α → F)} {d : String → Dist} {k : String}
    {names : List String} (hp : ∀ k ∈ names, pop.get? k = some (some (d k))) (h : FirstMissing data names k) :
    popWeights pop data names = .error (.keyError k) := by
  suffices hl : logProbs pop data names = .error (.keyError k) ∨
      ((∃ l, logProbs pop data names = .ok l) ∧ k = "prior" ∧ data "prior" = none) by
    unfold popWeights
    rcases hl with hl | ⟨⟨l, hl⟩, rfl, hk⟩
    · rw [hl]
    · simp only [hl, getKey, hk]
  induction names with
  | nil =>
    obtain ⟨pre, post, e, -, hk⟩ := h
    cases pre with
    | nil =>
      simp only [List.nil_append, List.cons.injEq] at e
      obtain ⟨rfl, -⟩ := e
      exact Or.inr ⟨⟨_, rfl⟩, rfl, hk⟩
    | cons a pre => simp at e
  | cons a l ih =>
    obtain ⟨pre, post, e, hpre, hk⟩ := h
    have ha := hp a (by simp)
    cases pre with
    | nil =>
      simp only [List.cons_append, List.nil_append, List.cons.injEq] at e
      obtain ⟨rfl, -⟩ := e
      exact Or.inl (by simp only [logProbs, dictGet, ha, getKey, hk])
    | cons b pre =>
      simp only [List.cons_append, List.cons.injEq] at e
      obtain ⟨rfl, e⟩ := e
      obtain ⟨x, hx⟩ := Option.ne_none_iff_exists'.1 (hpre a (by simp))
      rcases ih (fun k hk => hp k (by simp [hk])) ⟨pre, post, e, fun j hj => hpre j (by simp [hj]), hk⟩ with h | ⟨⟨l', h⟩, h2⟩
      · exact Or.inl (by simp only [logProbs, dictGet, ha, getKey, hx, h])
      · exact Or.inr ⟨⟨(fun i => (d a).logp (x i)) :: l', by simp only [logProbs, dictGet, ha, getKey, hx, h]⟩, h2⟩

/-- **C51, missing data**: a call on data without one of the columns it needs (the configured parameters in order, then `prior`) draws the
hyper-parameters and raises a `KeyError` naming the first missing column, the injections being read before the samples. -/
theorem C51_missing_column {V : Type} {E N M : ℕ} (cf : ConstructFlags) (model_dict : PyDict (Spec V))
    (prior_dict : PyDict (Prior V)) (zgrid : V) (pop : PyDict (Option Dist)) (env : CallEnv V E N M) (d : String → Dist)
    (hd : ∀ k s, (k, s) ∈ model_dict → Evaluates prior_dict env.draw zgrid k s (d k)) (k : String)
    (hk : FirstMissing env.injs model_dict.keys k ∨
      ((∀ j ∈ model_dict.keys ++ ["prior"], env.injs j ≠ none) ∧ FirstMissing env.samps model_dict.keys k)) :
    (modelCall cf model_dict prior_dict zgrid pop env).2 = (priorSites prior_dict, .error (.keyError k)) := by
  obtain ⟨i1, i2, i3⟩ := loop_ok d model_dict hd ⟨pop, [], none⟩ rfl
  have hb : buildModels model_dict prior_dict zgrid env.draw pop
      = model_dict.foldl (loopStep (hyperValues prior_dict env.draw) zgrid) ⟨pop, [], none⟩ := by
    unfold buildModels; simp only [i2, List.foldl_nil]
  have hp : ∀ k ∈ model_dict.keys, (buildModels model_dict prior_dict zgrid env.draw pop).pop.get? k = some (some (d k)) := by
    intro k hk; rw [hb, i3 k, if_pos hk]
  have he : (buildModels model_dict prior_dict zgrid env.draw pop).err = none := by rw [hb]; exact i1
  rcases hk with hk | ⟨hi, pre, post, e, hpre, hk⟩
  · unfold modelCall
    simp only [he, evalModel, popWeights_missing hp hk, List.append_nil]
  · have w2 : popWeights (buildModels model_dict prior_dict zgrid env.draw pop).pop (uncurryData env.samps) model_dict.keys
        = .error (.keyError k) :=
      popWeights_missing hp ⟨pre, post, e, fun j hj => by simpa [uncurryData] using hpre j hj, by simp [uncurryData, hk]⟩
    have hg : ∀ j, ∃ y, j ∈ model_dict.keys ++ ["prior"] → env.injs j = some y := fun j => by
      by_cases hj : j ∈ model_dict.keys ++ ["prior"]
      · obtain ⟨y, hy⟩ := Option.ne_none_iff_exists'.1 (hi j hj)
        exact ⟨y, fun _ => hy⟩
      · exact ⟨fun _ => fin 0, fun h => absurd h hj⟩
    choose y hy using hg
    have w1 : popWeights (buildModels model_dict prior_dict zgrid env.draw pop).pop env.injs model_dict.keys
        = .ok fun i => (model_dict.keys.map fun k => (d k).logp (y k i)).sum - log (y "prior" i) := by
      simp only [popWeights, logProbs_ok hp (fun k hk => hy k (List.mem_append_left _ hk)), getKey, hy "prior" (by simp), List.map_map]; rfl
    unfold modelCall
    simp only [he, evalModel, w1, w2, List.append_nil]

/-- **C51 fails** for analyses without masses under the default flags: the model the builder returns runs the predictive check, and a call
on data without `mass_1` raises a `KeyError` for it, although no configured parameter needs it.  All likelihood statements are executed before. -/
theorem C51_missing_mass_fails {V : Type} {E N M : ℕ} (cf : ConstructFlags) (hcf : cf.posterior_predictive_check = true)
    (hfl : ¬ (cf.max_variance_cut = true ∧ (cf.marginalize_selection = true ∨ cf.min_neff_cut = true)))
    (model_dict : PyDict (Spec V)) (prior_dict : PyDict (Prior V)) (zgrid : V) (pop : PyDict (Option Dist)) (env : CallEnv V E N M)
    (d : String → Dist) (hd : ∀ k s, (k, s) ∈ model_dict → Evaluates prior_dict env.draw zgrid k s (d k))
    (hz : "redshift" ∈ model_dict.keys) (norm : F) (hn : (d "redshift").norm = some norm)
    (x : String → Fin E → Fin N → F) (xp : Fin E → Fin N → F) (y : String → Fin M → F) (yp : Fin M → F)
    (hx : ∀ k ∈ model_dict.keys, env.samps k = some (x k)) (hxp : env.samps "prior" = some xp)
    (hy : ∀ k ∈ model_dict.keys, env.injs k = some (y k)) (hyp : env.injs "prior" = some yp) (hm : env.samps "mass_1" = none) :
    (modelCall cf model_dict prior_dict zgrid pop env).2 =
        ((modelCall { cf with posterior_predictive_check := false } model_dict prior_dict zgrid pop env).2.1, .error (.keyError "mass_1")) ∧
      (modelCall { cf with posterior_predictive_check := false } model_dict prior_dict zgrid pop env).2.2 = .ok () := by
  obtain ⟨r, hr, h⟩ := C51_run_partial cf model_dict prior_dict zgrid pop env d hd hz norm hn x xp y yp hx hxp hy hyp
  obtain ⟨r', hr', h'⟩ := C51_run_partial { cf with posterior_predictive_check := false } model_dict prior_dict zgrid pop env d hd hz norm hn
    x xp y yp hx hxp hy hyp
  rw [if_pos hcf, C49_missing_column
    { reconstruct_rate := true, marginalize_selection := cf.marginalize_selection, min_neff_cut := cf.min_neff_cut,
      max_variance_cut := cf.max_variance_cut, log := true } _ _ _ _ _ _ _ _ hfl (by simp) "mass_1" (Or.inl ⟨rfl, hm⟩)] at hr
  simp only [Bool.false_eq_true, if_false] at hr'
  rw [h, h', hr, hr']
  refine ⟨rfl, ?_⟩
  unfold hierarchical_likelihood
  rw [if_neg hfl]
  simp [ratePart, ppcOf, Except.map]

/-- Whatever the outcome of a call, it first samples the hyper-parameters that have a prior, each under its own name and
in the order of the prior dictionary, and never samples one with a fixed value. -/
theorem C51_prior_sites {V : Type} {E N M : ℕ} (cf : ConstructFlags) (model_dict : PyDict (Spec V))
    (prior_dict : PyDict (Prior V)) (zgrid : V) (pop : PyDict (Option Dist)) (env : CallEnv V E N M) :
    ∃ (names : List String) (rest : List Site), (modelCall cf model_dict prior_dict zgrid pop env).2.1 = names.map Site.sample ++ rest ∧
      names.Sublist prior_dict.keys ∧
      (prior_dict.keys.Nodup → ∀ k, k ∈ names ↔ ∃ dist params, prior_dict.get? k = some (.prior dist params)) := by
  set f : String × Prior V → Option String := fun kv => match kv.2 with | .prior _ _ => some kv.1 | .fixed _ => none with hf
  refine ⟨prior_dict.filterMap f, ?_⟩
  have h1 : priorSites prior_dict = (prior_dict.filterMap f).map Site.sample := by
    unfold priorSites
    rw [List.map_filterMap]
    congr 1
    funext kv
    rcases kv with ⟨k, v⟩
    cases v <;> rfl
  have hmem : ∀ k, k ∈ prior_dict.filterMap f ↔ ∃ dist params, (k, Prior.prior dist params) ∈ prior_dict := by
    intro k
    simp only [List.mem_filterMap, hf]
    constructor
    · rintro ⟨⟨k', v⟩, hm, h⟩
      cases v with
      | prior d ps => simp only [Option.some.injEq] at h; subst h; exact ⟨d, ps, hm⟩
      | fixed v => simp at h
    · rintro ⟨d, ps, hm⟩
      exact ⟨_, hm, rfl⟩
  have hsub : (prior_dict.filterMap f).Sublist prior_dict.keys := by
    unfold PyDict.keys
    generalize prior_dict = l at *
    clear h1 hmem
    induction l with
    | nil => simp
    | cons kv l ih =>
      rcases kv with ⟨k, v⟩
      cases v with
      | prior d ps => simp only [List.filterMap_cons, hf, List.map_cons]; exact ih.cons_cons _
      | fixed v => simp only [List.filterMap_cons, hf, List.map_cons]; exact ih.cons _
  have hnames : prior_dict.keys.Nodup → ∀ k, k ∈ prior_dict.filterMap f ↔
      ∃ dist params, prior_dict.get? k = some (.prior dist params) := by
    intro hnd k
    rw [hmem]
    constructor
    · rintro ⟨d, ps, hm⟩; exact ⟨d, ps, PyDict.get?_of_mem hnd hm⟩
    · rintro ⟨d, ps, hm⟩; exact ⟨d, ps, PyDict.mem_of_get? hm⟩
  unfold modelCall
  simp only []
  split
  · exact ⟨[], by simp [h1], hsub, hnames⟩
  · exact ⟨_, by rw [h1], hsub, hnames⟩

/-- What constructing the model function requires: with a redshift model, a *fixed* maximum redshift.  A missing one is a
`KeyError`, a sampled one a `TypeError`; every source parameter starts without a distribution. -/
theorem C51_construct {V : Type} (lin : V → V) (dflt : V) (model_dict : PyDict (Spec V)) (prior_dict : PyDict (Prior V)) :
    ("redshift" ∉ model_dict.keys → ∃ g pop, construct lin dflt model_dict prior_dict = .ok (g, pop) ∧
      pop.keys = model_dict.keys ∧ ∀ k ∈ model_dict.keys, pop.get? k = some none) ∧
    ("redshift" ∈ model_dict.keys →
      (prior_dict.get? "redshift_maximum" = none →
        construct lin dflt model_dict prior_dict = .error (.keyError "redshift_maximum")) ∧
      (∀ d ps, prior_dict.get? "redshift_maximum" = some (.prior d ps) →
        construct lin dflt model_dict prior_dict = .error .typeError) ∧
      (∀ v, prior_dict.get? "redshift_maximum" = some (.fixed v) →
        ∃ pop, construct lin dflt model_dict prior_dict = .ok (lin v, pop) ∧
          pop.keys = model_dict.keys ∧ ∀ k ∈ model_dict.keys, pop.get? k = some none)) := by
  have hk : PyDict.keys (model_dict.map fun kv => (kv.1, (none : Option Dist))) = model_dict.keys := by
    unfold PyDict.keys; rw [List.map_map]; rfl
  have hg : ∀ k ∈ model_dict.keys, PyDict.get? (model_dict.map fun kv => (kv.1, (none : Option Dist))) k = some none := by
    intro k hm
    rw [← hk, PyDict.mem_keys_iff] at hm
    obtain ⟨v, hv⟩ := hm
    have := PyDict.mem_of_get? hv
    obtain ⟨kv, _, he⟩ := List.mem_map.1 this
    rw [hv]
    simp only [Prod.mk.injEq] at he
    rw [← he.2]
  refine ⟨fun h => ⟨dflt, _, by unfold construct; simp only [if_neg h], hk, hg⟩, fun h => ⟨fun h' => ?_, fun d ps h' => ?_, fun v h' => ⟨_, ?_, hk, hg⟩⟩⟩
  all_goals unfold construct; simp only [if_pos h, h']

/-! ### history independence -/

/-- the names that string entries point to -/
def Target {V : Type} (model_dict : PyDict (Spec V)) (k : String) : Prop := ∃ a, (a, Spec.shared k) ∈ model_dict

theorem loop_agree {V : Type} {model_dict : PyDict (Spec V)} (hyper : PyDict V) (zgrid : V) :
    ∀ (l : List (String × Spec V)), ∀ st st' : LoopSt, st.err = st'.err → st.iid = st'.iid →
      (∀ k, (∀ s, (k, s) ∈ l → ∃ v, s = Spec.shared v) → ¬ Target model_dict k → st.pop.get? k = st'.pop.get? k) →
      (l.foldl (loopStep hyper zgrid) st).err = (l.foldl (loopStep hyper zgrid) st').err ∧
      (l.foldl (loopStep hyper zgrid) st).iid = (l.foldl (loopStep hyper zgrid) st').iid ∧
      ((l.foldl (loopStep hyper zgrid) st).err = none → ∀ k, ¬ Target model_dict k →
        (l.foldl (loopStep hyper zgrid) st).pop.get? k = (l.foldl (loopStep hyper zgrid) st').pop.get? k) := by
  intro l
  induction l with
  | nil => intro st st' h1 h2 h3; exact ⟨h1, h2, fun _ k hk => h3 k (by simp) hk⟩
  | cons a l ih =>
    intro st st' h1 h2 h3
    obtain ⟨k0, s0⟩ := a
    rw [List.foldl_cons, List.foldl_cons]
    cases he : st.err with
    | some e =>
      have e1 : loopStep hyper zgrid st (k0, s0) = st := by unfold loopStep; rw [he]
      have e2 : loopStep hyper zgrid st' (k0, s0) = st' := by unfold loopStep; rw [← h1, he]
      rw [e1, e2, loop_err_mono _ _ _ _ _ he, loop_err_mono _ _ _ _ e (h1 ▸ he)]
      exact ⟨h1, h2, fun h => by rw [he] at h; simp at h⟩
    | none =>
      have he' : st'.err = none := by rw [← h1, he]
      by_cases hs : ∃ v, s0 = .shared v
      · obtain ⟨v, rfl⟩ := hs
        have e1 : loopStep hyper zgrid st (k0, .shared v) = { st with iid := st.iid.set v k0 } := by unfold loopStep; rw [he]
        have e2 : loopStep hyper zgrid st' (k0, .shared v) = { st' with iid := st'.iid.set v k0 } := by unfold loopStep; rw [he']
        rw [e1, e2]
        refine ih _ _ h1 (by simp [h2]) (fun k hk ht => h3 k (fun s hs => ?_) ht)
        rcases List.mem_cons.1 hs with h | h
        · exact ⟨v, (Prod.mk.inj h).2⟩
        · exact hk s h
      · have e : ∀ t : LoopSt, t.err = none → loopStep hyper zgrid t (k0, s0) = match evalSpec hyper zgrid k0 s0 with
            | .error e => { t with err := some e }
            | .ok d => { t with pop := t.pop.set k0 d } := by
          intro t ht
          unfold loopStep
          rw [ht]
          cases s0 with
          | shared v => exact absurd ⟨v, rfl⟩ hs
          | _ => rfl
        rw [e st he, e st' he']
        cases hv : evalSpec hyper zgrid k0 s0 with
        | error er =>
          simp only
          rw [loop_err_mono _ _ _ _ er rfl, loop_err_mono _ _ _ _ er rfl]
          exact ⟨rfl, h2, fun h => by simp at h⟩
        | ok d =>
          simp only
          refine ih _ _ h1 h2 (fun k hk ht => ?_)
          simp only [PyDict.get?_set]
          by_cases hkk : k = k0
          · simp [hkk]
          · simp only [hkk, if_false]
            refine h3 k (fun s hs' => ?_) ht
            rcases List.mem_cons.1 hs' with h | h
            · exact absurd (Prod.mk.inj h).1 hkk
            · exact hk s h

theorem iid_agree {V : Type} {model_dict : PyDict (Spec V)} : ∀ (l : List (String × String)), IidOK model_dict l →
    ∀ st st' : LoopSt, st.err = none → st'.err = none → SharedNone model_dict st.pop → SharedNone model_dict st'.pop →
      (∀ k, k ∉ PyDict.keys l → st.pop.get? k = st'.pop.get? k) →
      (l.foldl iidStep st).err = none ∧ (l.foldl iidStep st').err = none ∧
      ∀ k, (l.foldl iidStep st).pop.get? k = (l.foldl iidStep st').pop.get? k := by
  intro l
  induction l with
  | nil => intro _ st st' h1 h2 _ _ h; exact ⟨h1, h2, fun k => h k (by simp [PyDict.keys])⟩
  | cons a l ih =>
    intro hl st st' h1 h2 s1 s2 h
    have hkv := hl a.1 a.2 List.mem_cons_self
    have hl' : IidOK model_dict l := fun x y hxy => hl x y (List.mem_cons_of_mem _ hxy)
    have i1 := iid_inv [a] (fun x y hxy => by simp at hxy; exact hl x y (by simp [hxy])) st s1
    have i2 := iid_inv [a] (fun x y hxy => by simp at hxy; exact hl x y (by simp [hxy])) st' s2
    have e : ∀ t : LoopSt, t.err = none → SharedNone model_dict t.pop → iidStep t a = { t with pop := t.pop.set a.1 none } := by
      intro t ht hs
      unfold iidStep; rw [ht]; simp only [dictGet, hs _ _ hkv]
    simp only [List.foldl_cons, List.foldl_nil] at i1 i2 ⊢
    rw [e st h1 s1] at i1 ⊢
    rw [e st' h2 s2] at i2 ⊢
    refine ih hl' _ _ h1 h2 i1 i2 (fun k hk => ?_)
    simp only [PyDict.get?_set]
    by_cases hka : k = a.1
    · simp [hka]
    · simp only [hka, if_false]
      exact h k (by simp only [PyDict.keys, List.map_cons, List.mem_cons, not_or]; exact ⟨hka, hk⟩)

theorem loop_targets {V : Type} (hyper : PyDict V) (zgrid : V) : ∀ (l : List (String × Spec V)) (st : LoopSt),
    (l.foldl (loopStep hyper zgrid) st).err = none → ∀ t, (t ∈ st.iid.keys ∨ ∃ a, (a, Spec.shared t) ∈ l) →
      t ∈ (l.foldl (loopStep hyper zgrid) st).iid.keys := by
  intro l
  induction l with
  | nil => intro st _ t h; simpa using h
  | cons a l ih =>
    intro st he t ht
    rw [List.foldl_cons] at he ⊢
    refine ih _ he t ?_
    obtain ⟨k0, s0⟩ := a
    have hnone : st.err = none := by
      cases h : st.err with
      | none => rfl
      | some e =>
        have e1 : loopStep hyper zgrid st (k0, s0) = st := by unfold loopStep; rw [h]
        rw [e1, loop_err_mono _ _ _ _ _ h, h] at he; simp at he
    rcases ht with ht | ⟨b, hb⟩
    · left
      rcases loopStep_cases hyper zgrid st (k0, s0) with h | ⟨v, _, h⟩ | ⟨e, h⟩ | ⟨_, d, _, h⟩ <;> rw [h]
      · exact ht
      · exact (PyDict.mem_keys_set _ _ _ _).2 (Or.inr ht)
      · exact ht
      · exact ht
    · rcases List.mem_cons.1 hb with h | h
      · left
        obtain ⟨rfl, rfl⟩ := Prod.mk.inj h
        unfold loopStep; rw [hnone]
        exact (PyDict.mem_keys_set _ _ _ _).2 (Or.inl rfl)
      · exact Or.inr ⟨b, h⟩

/-- outside the configured names and the names string entries point to, `pop_models` has no entries -/
theorem iid_outside {V : Type} {model_dict : PyDict (Spec V)} : ∀ (l : List (String × String)), IidOK model_dict l →
    ∀ st : LoopSt, ∀ k, ¬ Target model_dict k → (l.foldl iidStep st).pop.get? k = st.pop.get? k := by
  intro l
  induction l with
  | nil => intro _ st k _; rfl
  | cons a l ih =>
    intro hl st k hk
    rw [List.foldl_cons, ih (fun x y hxy => hl x y (List.mem_cons_of_mem _ hxy)) _ k hk]
    have hkv := hl a.1 a.2 List.mem_cons_self
    unfold iidStep
    cases st.err with
    | some e => rfl
    | none =>
      simp only
      cases dictGet st.pop a.2 with
      | error e => rfl
      | ok d => exact PyDict.get?_set_ne _ _ (fun e => hk ⟨a.2, e ▸ hkv⟩)

theorem loop_outside {V : Type} (hyper : PyDict V) (zgrid : V) : ∀ (l : List (String × Spec V)) (st : LoopSt) (k : String),
    k ∉ PyDict.keys l → (l.foldl (loopStep hyper zgrid) st).pop.get? k = st.pop.get? k := by
  intro l
  induction l with
  | nil => intro st k _; rfl
  | cons a l ih =>
    intro st k hk
    simp only [PyDict.keys, List.map_cons, List.mem_cons, not_or] at hk
    rw [List.foldl_cons, ih _ k hk.2]
    rcases loopStep_cases hyper zgrid st a with h | ⟨v, _, h⟩ | ⟨e, h⟩ | ⟨_, d, _, h⟩ <;> rw [h]
    exact PyDict.get?_set_ne _ _ hk.1

theorem reachable_outside {V : Type} {E N M : ℕ} {cf : ConstructFlags} {model_dict : PyDict (Spec V)}
    (hd : model_dict.keys.Nodup) {prior_dict : PyDict (Prior V)} {zgrid : V} {pop : PyDict (Option Dist)}
    (h : Reachable (E := E) (N := N) (M := M) cf model_dict prior_dict zgrid pop) (k : String) (hk : k ∉ model_dict.keys)
    (ht : ¬ Target model_dict k) : pop.get? k = none := by
  induction h with
  | init => rw [get?_map_none, if_neg hk]
  | call pop env hr ih =>
    rw [modelCall_pop]
    unfold buildModels
    have := loop_inv hd (hyperValues prior_dict env.draw) zgrid model_dict (fun _ h => h) ⟨pop, [], none⟩
      (reachable_sharedNone hd hr) (fun a b hab => by simp at hab)
    simp only
    rw [iid_outside _ this.2 _ k ht, loop_outside _ _ _ _ k hk]
    exact ih

theorem popWeights_congr {α : Type} {pop pop' : PyDict (Option Dist)} (h : ∀ k, pop.get? k = pop'.get? k)
    (data : String → Option (α → F)) (names : List String) : popWeights pop data names = popWeights pop' data names := by
  have : logProbs pop data names = logProbs pop' data names := by
    induction names with
    | nil => rfl
    | cons a l ih => simp only [logProbs, dictGet, h a, ih]
  simp only [popWeights, this]

/-- **C78**. The model function keeps its sub-models in variables that survive the call, yet a call after any number of
earlier calls (completed or aborted, with any data and draws) executes the same statements and has the same outcome as
the first call. -/
theorem C78_history_independent {V : Type} {E N M : ℕ} (cf : ConstructFlags) (model_dict : PyDict (Spec V))
    (hd : model_dict.keys.Nodup) (prior_dict : PyDict (Prior V)) (zgrid : V) (pop : PyDict (Option Dist))
    (hr : Reachable (E := E) (N := N) (M := M) cf model_dict prior_dict zgrid pop) (env : CallEnv V E N M) :
    (modelCall cf model_dict prior_dict zgrid pop env).2
      = (modelCall cf model_dict prior_dict zgrid (model_dict.map fun kv => (kv.1, none)) env).2 := by
  set pop0 : PyDict (Option Dist) := model_dict.map fun kv => (kv.1, none) with hpop0
  have hr0 : Reachable (E := E) (N := N) (M := M) cf model_dict prior_dict zgrid pop0 := Reachable.init
  set hyper := hyperValues prior_dict env.draw with hhy
  have s1 := reachable_sharedNone hd hr
  have s0 := reachable_sharedNone hd hr0
  have hinit : ∀ k, (∀ s, (k, s) ∈ model_dict → ∃ v, s = Spec.shared v) → ¬ Target model_dict k → pop.get? k = pop0.get? k := by
    intro k hk ht
    by_cases hkm : k ∈ model_dict.keys
    · obtain ⟨s, hs⟩ := (PyDict.mem_keys_iff _ _).1 hkm
      have hm := PyDict.mem_of_get? hs
      obtain ⟨v, rfl⟩ := hk s hm
      rw [s1 k v hm, s0 k v hm]
    · rw [reachable_outside hd hr k hkm ht, reachable_outside hd hr0 k hkm ht]
  obtain ⟨a1, a2, a3⟩ := loop_agree (model_dict := model_dict) hyper zgrid model_dict ⟨pop, [], none⟩ ⟨pop0, [], none⟩ rfl rfl hinit
  have n1 := loop_inv hd hyper zgrid model_dict (fun _ h => h) ⟨pop, [], none⟩ s1 (fun a b hab => by simp at hab)
  have n0 := loop_inv hd hyper zgrid model_dict (fun _ h => h) ⟨pop0, [], none⟩ s0 (fun a b hab => by simp at hab)
  cases he : (model_dict.foldl (loopStep hyper zgrid) ⟨pop, [], none⟩).err with
  | some e =>
    have b1 : (buildModels model_dict prior_dict zgrid env.draw pop).err = some e := by
      unfold buildModels; simp only; rw [iid_err_mono _ _ _ he]; exact he
    have b0 : (buildModels model_dict prior_dict zgrid env.draw pop0).err = some e := by
      unfold buildModels; simp only; rw [iid_err_mono _ _ _ (a1 ▸ he)]; exact a1 ▸ he
    unfold modelCall; simp only [b1, b0]
  | none =>
    have he0 := a1 ▸ he
    have a3 := a3 he
    have hag : ∀ k, k ∉ PyDict.keys (model_dict.foldl (loopStep hyper zgrid) ⟨pop, [], none⟩).iid →
        (model_dict.foldl (loopStep hyper zgrid) ⟨pop, [], none⟩).pop.get? k
          = (model_dict.foldl (loopStep hyper zgrid) ⟨pop0, [], none⟩).pop.get? k := by
      intro k hk
      refine a3 k (fun ht => hk (loop_targets hyper zgrid model_dict _ he k (Or.inr ht)))
    obtain ⟨c1, c0, c⟩ := iid_agree _ n1.2 _ _ he he0 n1.1 n0.1 hag
    have b1 : (buildModels model_dict prior_dict zgrid env.draw pop).err = none := c1
    have b0 : (buildModels model_dict prior_dict zgrid env.draw pop0).err = none := by
      unfold buildModels; simp only; rw [← a2]; exact c0
    have b : ∀ k, (buildModels model_dict prior_dict zgrid env.draw pop).pop.get? k
        = (buildModels model_dict prior_dict zgrid env.draw pop0).pop.get? k := by
      intro k; unfold buildModels; simp only; rw [← a2]; exact c k
    unfold modelCall
    simp only [b1, b0]
    have : evalModel cf model_dict.keys (buildModels model_dict prior_dict zgrid env.draw pop).pop env
        = evalModel cf model_dict.keys (buildModels model_dict prior_dict zgrid env.draw pop0).pop env := by
      simp only [evalModel, popWeights_congr b, dictGet, b]
    rw [this]

/-- **C51 fails** without a redshift entry: a configuration with no redshift parameter (and none that shares with it)
always raises. -/
theorem C51_missing_redshift_fails {V : Type} {E N M : ℕ} (cf : ConstructFlags) (model_dict : PyDict (Spec V))
    (hd : model_dict.keys.Nodup) (prior_dict : PyDict (Prior V)) (zgrid : V) (hz : "redshift" ∉ model_dict.keys)
    (pop : PyDict (Option Dist)) (hr : Reachable (E := E) (N := N) (M := M) cf model_dict prior_dict zgrid pop)
    (env : CallEnv V E N M) : ∃ e, (modelCall cf model_dict prior_dict zgrid pop env).2.2 = .error e := by
  by_cases hs : ∃ k v, (k, Spec.shared v) ∈ model_dict
  · obtain ⟨k, v, h⟩ := hs
    exact C50_iid_sharing_fails cf model_dict hd prior_dict zgrid k v h pop hr env
  · have ht : ¬ Target model_dict "redshift" := fun ⟨a, h⟩ => hs ⟨a, _, h⟩
    have := reachable_outside hd (Reachable.call pop env hr) "redshift" hz ht
    rw [modelCall_pop] at this
    unfold modelCall
    simp only
    split
    · exact ⟨_, rfl⟩
    · unfold evalModel
      cases popWeights (buildModels model_dict prior_dict zgrid env.draw pop).pop env.injs model_dict.keys with
      | error e => exact ⟨e, rfl⟩
      | ok inj =>
        simp only
        cases popWeights (buildModels model_dict prior_dict zgrid env.draw pop).pop (uncurryData env.samps) model_dict.keys with
        | error e => exact ⟨e, rfl⟩
        | ok pe => simp only [dictGet, this]; exact ⟨_, rfl⟩

/-! ### concrete configurations -/

/-- a configuration of the redshift alone meets the hypotheses of `C51_missing_mass_fails` with the default flags -/
example (b : PyDict ℝ → Dist) (hb : ∀ kw, (b kw).norm = some 1) (draw : String → ℝ) (zgrid : ℝ) (pop : PyDict (Option Dist)) :
    (modelCall (E := 1) (N := 1) (M := 1) {} [("redshift", Spec.pop ⟨["lamb", "grid"], ["lamb"], b⟩ ["lamb"])]
      [("redshift_lamb", .prior "numpyro.distributions.Normal" [])] zgrid pop
      { samps := fun k => if k = "redshift" ∨ k = "prior" then some fun _ _ => fin 1 else none
        injs := fun k => if k = "redshift" ∨ k = "prior" then some fun _ => fin 1 else none
        Ninj := 10, Nobs := 1, Tobs := fin 1, draw := draw, unscaled := fin 1, unif := fun _ => 0 }).2.2 = .error (.keyError "mass_1") := by
  rw [(C51_missing_mass_fails {} rfl (by simp) _ _ zgrid pop _
    (fun _ => b ((["lamb"].map fun p => (p, draw "redshift_lamb")) ++ [("grid", zgrid)])) ?_ (by simp [PyDict.keys]) 1 (hb _)
    (fun _ _ _ => fin 1) (fun _ _ => fin 1) (fun _ _ => fin 1) (fun _ => fin 1) (by simp [PyDict.keys]) (by simp) (by simp [PyDict.keys]) (by simp)
    (by simp)).1]
  intro k s h
  simp only [List.mem_singleton, Prod.mk.injEq] at h
  obtain ⟨rfl, rfl⟩ := h
  refine Evaluates.redshift _ _ (fun _ => draw "redshift_lamb") rfl (by decide) ⟨by simp, by simp⟩ ?_
  intro p hp
  simp only [List.mem_singleton] at hp
  subst hp
  exact Or.inl ⟨"numpyro.distributions.Normal", [], by simp [PyDict.get?], rfl⟩

/-- `prior` is the first column that data with only redshifts lack -/
example : FirstMissing (fun k => if k = "redshift" then some (0 : ℝ) else none) ["redshift"] "prior" :=
  ⟨["redshift"], [], rfl, by simp, by simp⟩

/-- a configuration of two parameters with a redshift class that accepts `grid` meets the hypotheses of
`C51_run_partial` -/
example (b1 b2 : PyDict ℝ → Dist) (hb : ∀ kw, (b2 kw).norm = some 1) (draw : String → ℝ) (zgrid : ℝ) :
    ∃ d : String → Dist, (∀ k s, (k, s) ∈ [("mass_1", Spec.pop ⟨["alpha"], ["alpha"], b1⟩ ["alpha"]),
        ("redshift", Spec.pop (bsplineCls ℝ b2) ["minimum", "maximum", "cs", "grid_dmat"])] →
      Evaluates [("mass_1_alpha", .prior "numpyro.distributions.Normal" []), ("redshift_minimum", .fixed 0), ("redshift_maximum", .fixed 2),
        ("redshift_cs", .prior "numpyro.distributions.Normal" []), ("redshift_grid_dmat", .fixed 1)] draw zgrid k s (d k)) ∧
      (d "redshift").norm = some 1 := by
  let v : String → ℝ := fun p => if p = "minimum" then 0 else if p = "maximum" then 2 else if p = "cs" then draw "redshift_cs" else 1
  refine ⟨fun k => if k = "redshift" then b2 ((["minimum", "maximum", "cs", "grid_dmat"].map fun p => (p, v p)) ++ [("grid", zgrid)])
    else b1 ((["alpha"]).map fun p => (p, draw "mass_1_alpha")), ?_, by simp [hb]⟩
  intro k s h
  simp only [List.mem_cons, Prod.mk.injEq, List.not_mem_nil, or_false] at h
  rcases h with ⟨rfl, rfl⟩ | ⟨rfl, rfl⟩
  · beta_reduce
    rw [if_neg (show ¬ ("mass_1" = "redshift") by decide)]
    refine Evaluates.pop _ _ (fun _ => draw "mass_1_alpha") (by decide) ⟨by simp, by simp⟩ ?_
    intro p hp
    simp only [List.mem_singleton] at hp
    subst hp
    exact Or.inl ⟨"numpyro.distributions.Normal", [], by simp [PyDict.get?], rfl⟩
  · beta_reduce
    rw [if_pos rfl]
    refine Evaluates.redshift _ _ v rfl (by decide) ⟨by simp [bsplineCls], by simp [bsplineCls]⟩ ?_
    intro p hp
    simp only [List.mem_cons, List.not_mem_nil, or_false] at hp
    rcases hp with rfl | rfl | rfl | rfl
    · exact Or.inr (by simp [PyDict.get?, v])
    · exact Or.inr (by simp [PyDict.get?, v])
    · exact Or.inl ⟨"numpyro.distributions.Normal", [], by simp [PyDict.get?], by simp [v]⟩
    · exact Or.inr (by simp [PyDict.get?, v])

/-- the shipped example configuration (examples/config_files/config.yml:6-45) is an instance of the failing case -/
example (b1 b2 : PyDict ℝ → Dist) (zgrid : ℝ) (pop : PyDict (Option Dist)) (env : CallEnv ℝ 1 1 1) :
    ∃ e, (modelCall {} [("mass_1", Spec.pop ⟨["alpha", "minimum", "maximum", "low", "high", "validate_args"], ["alpha"], b1⟩
        ["alpha", "minimum", "maximum"]),
      ("mass_ratio", Spec.pop ⟨["alpha", "minimum", "maximum", "low", "high", "validate_args"], ["alpha"], b1⟩
        ["alpha", "minimum", "maximum"]),
      ("redshift", Spec.pop (powerlawRedshiftCls ℝ b2) ["lamb", "maximum"])]
      [("mass_1_alpha", .prior "numpyro.distributions.Normal" []), ("mass_1_minimum", .prior "numpyro.distributions.Normal" []), ("mass_1_maximum", .prior "numpyro.distributions.Normal" []), ("mass_ratio_alpha", .prior "numpyro.distributions.Normal" []),
       ("mass_ratio_minimum", .fixed 0.02), ("mass_ratio_maximum", .fixed 1), ("redshift_lamb", .prior "numpyro.distributions.Normal" []),
       ("redshift_maximum", .fixed 2.3)] zgrid pop env).2.2 = .error e :=
  C51_powerlaw_redshift_fails _ _ _ _ b2 ["lamb", "maximum"] (by simp) pop env

/-- a configuration with a shared parameter -/
example (b1 b2 : PyDict ℝ → Dist) (zgrid : ℝ) (env : CallEnv ℝ 1 1 1) :
    ∃ e, (modelCall {} [("a_1", Spec.pop ⟨["alpha"], ["alpha"], b1⟩ ["alpha"]), ("a_2", Spec.shared "a_1"),
      ("redshift", Spec.pop (bsplineCls ℝ b2) [])] [("a_1_alpha", .prior "numpyro.distributions.Normal" [])] zgrid
      [("a_1", none), ("a_2", none), ("redshift", none)] env).2.2 = .error e :=
  C50_iid_sharing_fails (E := 1) (N := 1) (M := 1) {} _ (by simp [PyDict.keys]) _ zgrid "a_2" "a_1" (by simp) _ Reachable.init env

end GW
end
