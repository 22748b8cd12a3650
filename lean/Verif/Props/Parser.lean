import Verif.Model.Parser
import Verif.Props.Construct

/-!
# C70 (configuration flattening) and the end-to-end consequences for C50
-/

noncomputable section
open Classical
namespace GW
variable {V : Type}

/-! ## Specification -/

/-- what a hyper-parameter's sub-dictionary asks for: a prior, else a fixed value, else nothing -/
def HP.asks (h : HP V) : Option (Prior V) :=
  match h.prior, h.prior_params with
  | some d, some ps => some (.prior d ps)
  | _, _ => h.value.map .fixed

/-- the flat name of every hyper-parameter of one source parameter, with its sub-dictionary, in reading order:
`<param>_<hp>`, or for mixtures (the model's name contains `Mixture`) `<param>_mixture_dist_<hp>` and `<param>_component_<i>_<hp>`, `i = 1 … n`. -/
def Entry.flat (e : Entry V) (n : ℕ) (param : String) : List (String × HP V) :=
  if "Mixture".toList <:+: (e.model.getD "").toList then
    (((e.mixture_dist.bind (·.hyper_params)).getD []).map fun x => (param ++ "_mixture_dist_" ++ x.1, x.2)) ++
    (List.range n).flatMap fun i =>
      (((e.comps.get? s!"component_{i + 1}").bind (·.hyper_params)).getD []).map fun x =>
        (s!"{param}_component_{i + 1}_" ++ x.1, x.2)
  else ((e.hyper_params).getD []).map fun x => (param ++ "_" ++ x.1, x.2)

/-- number of mixture components: the length of the first mixing hyper-parameter's concentration list -/
def Entry.size (im : Imports V) (e : Entry V) : ℕ :=
  ((((e.mixture_dist.bind (·.hyper_params)).bind (·.head?)).bind fun x => x.2.prior_params).bind
    fun ps => ps.get? "concentration").elim 0 im.len

/-- all flat names of a configuration -/
def flatAll (im : Imports V) (conf : PyDict (Entry V)) : List (String × HP V) :=
  conf.flatMap fun pe => pe.2.flat (pe.2.size im) pe.1

/-- the class named by a sub-dictionary together with its hyper-parameter names -/
def Sub.Denotes (im : Imports V) (b : Sub V) (c : Cls V × List String) : Prop :=
  ∃ m hps, b.model = some m ∧ im.cls m = some c.1 ∧ b.hyper_params = some hps ∧ c.2 = hps.keys

/-- the model entry a section describes: the named class with its hyper-parameter names, or the named mixture of the
classes of `component_1 … component_n` -/
def Entry.Denotes (im : Imports V) (e : Entry V) (s : Spec V) : Prop :=
  if "Mixture".toList <:+: (e.model.getD "").toList then
    ∃ m mix md mc mp comps, e.model = some m ∧ im.mix m = some mix ∧ e.mixture_dist = some md ∧ md.Denotes im (mc, mp) ∧
      comps.length = e.size im ∧ s = .mixture mix mc mp comps ∧
      ∀ i c, comps[i]? = some c → ∃ b, e.comps.get? s!"component_{i + 1}" = some b ∧ b.Denotes im c
  else ∃ c hs, e.toSub.Denotes im (c, hs) ∧ s = .pop c hs

/-! ## Lemmas -/

def foldHP (l : List (String × HP V)) (d : PyDict (Prior V)) : PyDict (Prior V) :=
  l.foldl (fun d kh => match kh.2.asks with | some p => d.set kh.1 p | none => d) d

def sampledKeys (l : List (String × HP V)) : List String :=
  l.filterMap fun kh => match kh.2.asks with | some (.prior _ _) => some kh.1 | _ => none

theorem foldHP_append (l l' : List (String × HP V)) (d : PyDict (Prior V)) : foldHP (l ++ l') d = foldHP l' (foldHP l d) := by
  simp [foldHP, List.foldl_append]

theorem foldHP_not_mem (l : List (String × HP V)) (k : String) (hk : k ∉ l.map Prod.fst) (d : PyDict (Prior V)) :
    (foldHP l d).get? k = d.get? k := by
  induction l generalizing d with
  | nil => rfl
  | cons a l ih =>
    simp only [List.map_cons, List.mem_cons, not_or] at hk
    have : foldHP (a :: l) d = foldHP l (match a.2.asks with | some p => d.set a.1 p | none => d) := rfl
    rw [this, ih hk.2]
    cases a.2.asks with
    | none => rfl
    | some p => exact PyDict.get?_set_ne _ _ hk.1

theorem foldHP_get (l : List (String × HP V)) (hl : (l.map Prod.fst).Nodup) (k : String) (h : HP V) (hk : (k, h) ∈ l)
    (d : PyDict (Prior V)) (hd : d.get? k = none) : (foldHP l d).get? k = h.asks := by
  induction l generalizing d with
  | nil => simp at hk
  | cons a l ih =>
    simp only [List.map_cons, List.nodup_cons] at hl
    have e : foldHP (a :: l) d = foldHP l (match a.2.asks with | some p => d.set a.1 p | none => d) := rfl
    rw [e]
    rcases List.mem_cons.1 hk with h1 | h1
    · subst h1
      rw [foldHP_not_mem l k hl.1]
      cases ha : h.asks with
      | none => exact hd
      | some p => exact PyDict.get?_set_self _ _ _
    · have hne : k ≠ a.1 := fun e => hl.1 (e ▸ List.mem_map.2 ⟨_, h1, rfl⟩)
      refine ih hl.2 h1 _ ?_
      cases a.2.asks with
      | none => exact hd
      | some p => exact (PyDict.get?_set_ne _ _ hne).trans hd

/-- the effect of reading a block of hyper-parameters -/
def Reads (l : List (String × HP V)) (r r' : Reader V) : Prop :=
  r'.priors = foldHP l r.priors ∧ r'.sampling_params = r.sampling_params ++ sampledKeys l

theorem Reads.nil (r : Reader V) : Reads [] r r := ⟨rfl, by simp [sampledKeys]⟩
theorem Reads.append {l l' : List (String × HP V)} {r r' r'' : Reader V} (h : Reads l r r') (h' : Reads l' r' r'') :
    Reads (l ++ l') r r'' :=
  ⟨by rw [h'.1, h.1, foldHP_append], by rw [h'.2, h.2]; simp [sampledKeys, List.append_assoc]⟩

theorem addPrior_reads {im : Imports V} {key : String} {h : HP V} {r r' : Reader V} (he : addPrior im key h r = .ok r') :
    Reads [(key, h)] r r' ∧ r'.models = r.models := by
  obtain ⟨p, ps, v⟩ := h
  cases p with
  | some d =>
    cases ps with
    | some ps =>
      simp only [addPrior] at he
      split_ifs at he
      injection he with he; subst he
      exact ⟨⟨rfl, rfl⟩, rfl⟩
    | none =>
      cases v with
      | some v => simp only [addPrior, Except.ok.injEq] at he; subst he; exact ⟨⟨rfl, by simp [sampledKeys, HP.asks]⟩, rfl⟩
      | none => simp only [addPrior, Except.ok.injEq] at he; subst he; exact ⟨⟨rfl, by simp [sampledKeys, HP.asks]⟩, rfl⟩
  | none =>
    cases v with
    | some v => simp only [addPrior, Except.ok.injEq] at he; subst he; exact ⟨⟨rfl, by simp [sampledKeys, HP.asks]⟩, rfl⟩
    | none => simp only [addPrior, Except.ok.injEq] at he; subst he; exact ⟨⟨rfl, by simp [sampledKeys, HP.asks]⟩, rfl⟩

theorem addPriors_reads {im : Imports V} {pre : String} {l : PyDict (HP V)} {r r' : Reader V}
    (he : addPriors im pre l r = .ok r') : Reads (l.map fun x => (pre ++ x.1, x.2)) r r' ∧ r'.models = r.models := by
  induction l generalizing r with
  | nil => simp only [addPriors, Except.ok.injEq] at he; subst he; exact ⟨Reads.nil _, rfl⟩
  | cons a l ih =>
    obtain ⟨hp, h⟩ := a
    simp only [addPriors] at he
    cases h1 : addPrior im (pre ++ hp) h r with
    | error e => rw [h1] at he; simp at he
    | ok r1 =>
      rw [h1] at he
      obtain ⟨a1, a2⟩ := addPrior_reads h1
      obtain ⟨b1, b2⟩ := ih he
      exact ⟨a1.append b1, b2.trans a2⟩

theorem addIid_reads {iid : Option (Option String)} {param : String} {r r' : Reader V} (he : addIid iid param r = .ok r') :
    Reads [] r r' ∧ ((iid = none ∧ r'.models = r.models) ∨ ∃ s, iid = some (some s) ∧ r'.models = r.models.set s (.shared param)) := by
  cases iid with
  | none => simp only [addIid, Except.ok.injEq] at he; subst he; exact ⟨Reads.nil _, Or.inl ⟨rfl, rfl⟩⟩
  | some o =>
    cases o with
    | none => simp [addIid] at he
    | some s =>
      simp only [addIid, Except.ok.injEq] at he; subst he
      exact ⟨⟨rfl, by simp [sampledKeys]⟩, Or.inr ⟨s, rfl, rfl⟩⟩

theorem need_ok {α : Type} {o : Option α} {k : String} {v : α} (h : need o k = .ok v) : o = some v := by
  cases o with
  | none => simp [need] at h
  | some w => simp only [need, Except.ok.injEq] at h; rw [h]
theorem load_ok {α : Type} {o : Option α} {k : String} {v : α} (h : load o k = .ok v) : o = some v := by
  cases o with
  | none => simp [load] at h
  | some w => simp only [load, Except.ok.injEq] at h; rw [h]

theorem bind_ok {α β : Type} {x : Except PyErr α} {f : α → Except PyErr β} {b : β} (h : (x >>= f) = .ok b) :
    ∃ a, x = .ok a ∧ f a = .ok b := by
  cases x with
  | error e => simp [bind, Except.bind] at h
  | ok a => exact ⟨a, rfl, h⟩

theorem addComponents_reads {im : Imports V} {param : String} {e : Entry V} : ∀ (n i : ℕ) (last : Option (Sub V))
    (r : Reader V) (out : List (Cls V × List String) × Option (Sub V) × Reader V),
    addComponents im param e n i last r = .ok out →
    Reads ((List.range' i n).flatMap fun j => (((e.comps.get? s!"component_{j + 1}").bind (·.hyper_params)).getD []).map
      fun x => (s!"{param}_component_{j + 1}_" ++ x.1, x.2)) r out.2.2 ∧ out.2.2.models = r.models ∧
    out.2.1 = (if n = 0 then last else e.comps.get? s!"component_{i + n}") ∧
    out.1.length = n ∧
    ∀ j c, out.1[j]? = some c → ∃ b, e.comps.get? s!"component_{i + j + 1}" = some b ∧ b.Denotes im c := by
  intro n
  induction n with
  | zero =>
    intro i last r out h
    simp only [addComponents, Except.ok.injEq] at h
    subst h
    exact ⟨Reads.nil _, rfl, rfl, rfl, by simp⟩
  | succ n ih =>
    intro i last r out h
    simp only [addComponents] at h
    obtain ⟨sub, h1, h⟩ := bind_ok h
    obtain ⟨name, h2, h⟩ := bind_ok h
    obtain ⟨c, h3, h⟩ := bind_ok h
    obtain ⟨hps, h4, h⟩ := bind_ok h
    obtain ⟨r1, h5, h⟩ := bind_ok h
    obtain ⟨rest, h6, h⟩ := bind_ok h
    injection h with h; subst h
    obtain ⟨a1, a2⟩ := addPriors_reads h5
    obtain ⟨b1, b2, b3, b4, b5⟩ := ih (i + 1) (some sub) r1 rest h6
    refine ⟨?_, b2.trans a2, ?_, by simp [b4], ?_⟩
    · rw [List.range'_succ, List.flatMap_cons]
      refine Reads.append ?_ b1
      rw [need_ok h1]
      simp only [Option.bind_some, need_ok h4, Option.getD_some]
      exact a1
    · simp only [Nat.succ_ne_zero, if_false, b3]
      by_cases hn : n = 0
      · subst hn; simp only [if_true]; rw [← need_ok h1]
      · rw [if_neg hn, show i + 1 + n = i + (n + 1) by omega]
    · intro j c' hj
      cases j with
      | zero =>
        simp only [List.getElem?_cons_zero, Option.some.injEq] at hj
        subst hj
        exact ⟨sub, need_ok h1, name, hps, need_ok h2, load_ok h3, need_ok h4, rfl⟩
      | succ j =>
        rw [List.getElem?_cons_succ] at hj
        have := b5 j c' hj
        rwa [show i + 1 + j = i + (j + 1) by omega] at this

theorem mixtureSize_ok {im : Imports V} {e : Entry V} {md : Sub V} {hps : PyDict (HP V)} {N : ℕ} (h1 : e.mixture_dist = some md)
    (h2 : md.hyper_params = some hps) (h : mixtureSize im hps = .ok N) : e.size im = N := by
  cases hps with
  | nil => simp [mixtureSize] at h
  | cons a l =>
    obtain ⟨x, hp⟩ := a
    simp only [mixtureSize] at h
    obtain ⟨ps, h3, h⟩ := bind_ok h
    obtain ⟨c, h4, h⟩ := bind_ok h
    injection h with h
    unfold Entry.size
    simp only [h1, Option.bind_some, h2, List.head?_cons, need_ok h3, need_ok h4, Option.elim, h]

/-- the dictionary whose "iid" entry is read: the entry itself, or the last mixture component -/
def Entry.iidOf (im : Imports V) (e : Entry V) : Option (Option String) :=
  if "Mixture".toList <:+: (e.model.getD "").toList then (e.comps.get? s!"component_{e.size im}").bind (·.iid) else e.iid

theorem addEntry_reads {im : Imports V} {r r' : Reader V} {param : String} {e : Entry V}
    (he : addEntry im r (param, e) = .ok r') : Reads (e.flat (e.size im) param) r r' ∧
    ∃ s : Spec V, (e.Denotes im s) ∧ ((e.iidOf im = none ∧ r'.models = r.models.set param s) ∨
      ∃ t, e.iidOf im = some (some t) ∧ r'.models = (r.models.set param s).set t (.shared param)) := by
  simp only [addEntry] at he
  cases hm : e.model with
  | none => rw [hm] at he; simp at he
  | some m =>
    rw [hm] at he
    simp only at he
    by_cases hmix : isMixture m
    · rw [if_pos hmix] at he
      simp only [addMixture] at he
      obtain ⟨name, h1, he⟩ := bind_ok he
      obtain ⟨model, h2, he⟩ := bind_ok he
      obtain ⟨md, h3, he⟩ := bind_ok he
      obtain ⟨mname, h4, he⟩ := bind_ok he
      obtain ⟨mc, h5, he⟩ := bind_ok he
      obtain ⟨hps, h6, he⟩ := bind_ok he
      obtain ⟨N, h7, he⟩ := bind_ok he
      obtain ⟨r1, h8, he⟩ := bind_ok he
      obtain ⟨cs, h9, he⟩ := bind_ok he
      have hN := mixtureSize_ok (need_ok h3) (need_ok h6) h7
      obtain ⟨a1, a2⟩ := addPriors_reads h8
      obtain ⟨b1, b2, b3, b4, b5⟩ := addComponents_reads N 0 none r1 cs h9
      cases hl : cs.2.1 with
      | none => rw [hl] at he; simp at he
      | some last =>
        rw [hl] at he
        simp only at he
        obtain ⟨c1, c2⟩ := addIid_reads he
        have hlast : e.comps.get? s!"component_{N}" = some last := by
          by_cases h0 : N = 0
          · rw [b3, if_pos h0] at hl; simp at hl
          · rw [b3, if_neg h0, Nat.zero_add] at hl; exact hl
        have hiid : e.iidOf im = last.iid := by
          unfold Entry.iidOf
          rw [if_pos (by rw [hm]; exact hmix), hN, hlast]; rfl
        refine ⟨?_, .mixture model mc hps.keys cs.1, ?_, ?_⟩
        rotate_left
        · unfold Entry.Denotes
          rw [if_pos (by rw [hm]; exact hmix)]
          refine ⟨name, model, md, mc, hps.keys, cs.1, need_ok h1, load_ok h2, need_ok h3,
            ⟨mname, hps, need_ok h4, load_ok h5, need_ok h6, rfl⟩, b4.trans hN.symm, rfl, fun i c hc => ?_⟩
          have := b5 i c hc
          rwa [Nat.zero_add] at this
        rotate_left
        · have hread := (a1.append b1).append (l' := []) (r'' := r') ⟨by rw [c1.1], by rw [c1.2]⟩
          rw [List.append_nil] at hread
          unfold Entry.flat
          rw [if_pos (by rw [hm]; exact hmix), hN, need_ok h3]
          simp only [Option.bind_some, need_ok h6, Option.getD_some]
          rw [List.range_eq_range']
          exact hread
        · rw [hiid]
          rcases c2 with ⟨h, h'⟩ | ⟨t, h, h'⟩
          · exact Or.inl ⟨h, by rw [h']; simp only [b2, a2]⟩
          · exact Or.inr ⟨t, h, by rw [h']; simp only [b2, a2]⟩
    · rw [if_neg hmix] at he
      simp only [addModel] at he
      obtain ⟨name, h1, he⟩ := bind_ok he
      obtain ⟨c, h2, he⟩ := bind_ok he
      obtain ⟨hps, h3, he⟩ := bind_ok he
      obtain ⟨r1, h4, he⟩ := bind_ok he
      obtain ⟨a1, a2⟩ := addPriors_reads h4
      obtain ⟨c1, c2⟩ := addIid_reads he
      have hiid : e.iidOf im = e.iid := by unfold Entry.iidOf; rw [if_neg (by rw [hm]; exact hmix)]
      refine ⟨?_, .pop c hps.keys, ?_, ?_⟩
      rotate_left
      · unfold Entry.Denotes
        rw [if_neg (by rw [hm]; exact hmix)]
        exact ⟨c, hps.keys, ⟨name, hps, need_ok h1, load_ok h2, need_ok h3, rfl⟩, rfl⟩
      rotate_left
      · have hread := a1.append c1
        rw [List.append_nil] at hread
        unfold Entry.flat
        rw [if_neg (by rw [hm]; exact hmix), need_ok h3, Option.getD_some]
        exact ⟨hread.1, hread.2⟩
      · rw [hiid]
        rcases c2 with ⟨h, h'⟩ | ⟨t, h, h'⟩
        · exact Or.inl ⟨h, by rw [h', a2]⟩
        · exact Or.inr ⟨t, h, by rw [h', a2]⟩

theorem parse_reads {im : Imports V} {conf : PyDict (Entry V)} {r r' : Reader V} (he : parseModels im conf r = .ok r') :
    Reads (flatAll im conf) r r' := by
  induction conf generalizing r with
  | nil => simp only [parseModels, Except.ok.injEq] at he; subst he; exact Reads.nil _
  | cons pe l ih =>
    obtain ⟨p, e⟩ := pe
    simp only [parseModels] at he
    cases h1 : addEntry im r (p, e) with
    | error er => rw [h1] at he; simp at he
    | ok r1 =>
      rw [h1] at he
      have := (addEntry_reads h1).1.append (ih he)
      simpa [flatAll] using this

/-- **C70** (what holds). When the flat names of a configuration are distinct and reading it succeeds, every
hyper-parameter — of plain models, mixing distributions and mixture components — is found under its flat name with
exactly what its own sub-dictionary asks for, nothing else is registered, and the sampled parameters are listed in
reading order. -/
theorem C70_flatten_partial (im : Imports V) (conf : PyDict (Entry V)) (r : Reader V)
    (hp : parseModels im conf {} = .ok r) (hn : ((flatAll im conf).map Prod.fst).Nodup) :
    (∀ key h, (key, h) ∈ flatAll im conf → r.priors.get? key = h.asks) ∧
    (∀ key, key ∉ (flatAll im conf).map Prod.fst → r.priors.get? key = none) ∧
    r.sampling_params = (flatAll im conf).filterMap fun kh =>
      match kh.2.asks with | some (.prior _ _) => some kh.1 | _ => none := by
  obtain ⟨h1, h2⟩ := parse_reads hp
  refine ⟨fun key h hk => ?_, fun key hk => ?_, ?_⟩
  · rw [h1]; exact foldHP_get _ hn key h hk _ rfl
  · rw [h1]; exact foldHP_not_mem _ key hk _
  · rw [h2]; rfl

/-- **C70** (the models dictionary). When no section declares sharing and the sections' names are distinct, the models
dictionary has exactly the sections' names, in order, each with the model its own section describes. -/
theorem C70_models_partial (im : Imports V) (conf : PyDict (Entry V)) (r : Reader V) (hp : parseModels im conf {} = .ok r)
    (hn : conf.keys.Nodup) (hi : ∀ p e, (p, e) ∈ conf → e.iidOf im = none) :
    r.models.keys = conf.keys ∧ ∀ p e, (p, e) ∈ conf → ∃ s, r.models.get? p = some s ∧ e.Denotes im s := by
  have hgen : ∀ (conf : PyDict (Entry V)) (r0 : Reader V), parseModels im conf r0 = .ok r → conf.keys.Nodup →
      (∀ p e, (p, e) ∈ conf → e.iidOf im = none) → (∀ k ∈ conf.keys, k ∉ r0.models.keys) →
      r.models.keys = r0.models.keys ++ conf.keys ∧
      (∀ k, k ∉ conf.keys → r.models.get? k = r0.models.get? k) ∧
      ∀ p e, (p, e) ∈ conf → ∃ s, r.models.get? p = some s ∧ e.Denotes im s := by
    intro conf
    induction conf with
    | nil =>
      intro r0 h _ _ _
      simp only [parseModels, Except.ok.injEq] at h; subst h
      exact ⟨by simp [PyDict.keys], fun _ _ => rfl, by simp⟩
    | cons pe l ih =>
      intro r0 h hn hi hd
      obtain ⟨p, e⟩ := pe
      simp only [parseModels] at h
      cases h1 : addEntry im r0 (p, e) with
      | error er => rw [h1] at h; simp at h
      | ok r1 =>
        rw [h1] at h
        obtain ⟨_, s, hs, ⟨_, hm⟩ | ⟨t, ht, _⟩⟩ := addEntry_reads h1
        · have hk : PyDict.keys ((p, e) :: l) = p :: PyDict.keys l := rfl
          rw [hk, List.nodup_cons] at hn
          have hp0 : p ∉ r0.models.keys := hd p (by rw [hk]; simp)
          have hk1 : r1.models.keys = r0.models.keys ++ [p] := by rw [hm, PyDict.keys_set, if_neg hp0]
          obtain ⟨i1, i2, i3⟩ := ih r1 h hn.2 (fun p' e' h' => hi p' e' (List.mem_cons_of_mem _ h')) (by
            intro k hk' hkr
            rw [hk1, List.mem_append, List.mem_singleton] at hkr
            rcases hkr with hkr | hkr
            · exact hd k (by rw [hk]; exact List.mem_cons_of_mem _ hk') hkr
            · exact hn.1 (hkr ▸ hk'))
          refine ⟨by rw [i1, hk1, hk]; simp, fun k hkn => ?_, fun p' e' h' => ?_⟩
          · rw [hk, List.mem_cons, not_or] at hkn
            rw [i2 k hkn.2, hm, PyDict.get?_set_ne _ _ hkn.1]
          · rcases List.mem_cons.1 h' with h'' | h''
            · obtain ⟨rfl, rfl⟩ := Prod.mk.inj h''
              exact ⟨s, by rw [i2 p' hn.1, hm, PyDict.get?_set_self], hs⟩
            · exact i3 p' e' h''
        · rw [hi p e (by simp)] at ht; simp at ht
  obtain ⟨h1, _, h3⟩ := hgen conf {} hp hn hi (by intro k _ h; simp [PyDict.keys] at h)
  exact ⟨by simpa [PyDict.keys] using h1, h3⟩

/-- the keys of the models dictionary stay distinct -/
theorem parse_nodup {im : Imports V} {conf : PyDict (Entry V)} {r r' : Reader V} (he : parseModels im conf r = .ok r')
    (hr : r.models.keys.Nodup) : r'.models.keys.Nodup := by
  induction conf generalizing r with
  | nil => simp only [parseModels, Except.ok.injEq] at he; subst he; exact hr
  | cons pe l ih =>
    obtain ⟨p, e⟩ := pe
    simp only [parseModels] at he
    cases h1 : addEntry im r (p, e) with
    | error er => rw [h1] at he; simp at he
    | ok r1 =>
      rw [h1] at he
      refine ih he ?_
      obtain ⟨_, s, _, ⟨_, h⟩ | ⟨t, _, h⟩⟩ := addEntry_reads h1
      · rw [h]; exact PyDict.nodup_set _ hr _ _
      · rw [h]; exact PyDict.nodup_set _ (PyDict.nodup_set _ hr _ _) _ _

/-- once a parameter is a string entry it stays one as long as no later section describes it -/
theorem parse_keeps_shared {im : Imports V} {conf : PyDict (Entry V)} {r r' : Reader V} (he : parseModels im conf r = .ok r')
    (t : String) (ht : t ∉ conf.keys) (h : ∃ v, r.models.get? t = some (.shared v)) :
    ∃ v, r'.models.get? t = some (.shared v) := by
  induction conf generalizing r with
  | nil => simp only [parseModels, Except.ok.injEq] at he; subst he; exact h
  | cons pe l ih =>
    obtain ⟨p, e⟩ := pe
    simp only [PyDict.keys, List.map_cons, List.mem_cons, not_or] at ht
    simp only [parseModels] at he
    cases h1 : addEntry im r (p, e) with
    | error er => rw [h1] at he; simp at he
    | ok r1 =>
      rw [h1] at he
      refine ih he ht.2 ?_
      obtain ⟨v, hv⟩ := h
      obtain ⟨_, s, _, ⟨_, h⟩ | ⟨t', _, h⟩⟩ := addEntry_reads h1
      · exact ⟨v, by rw [h, PyDict.get?_set_ne _ _ ht.1, hv]⟩
      · by_cases e' : t = t'
        · subst e'; exact ⟨p, by rw [h, PyDict.get?_set_self]⟩
        · exact ⟨v, by rw [h, PyDict.get?_set_ne _ _ e', PyDict.get?_set_ne _ _ ht.1, hv]⟩

/-- **C50 fails** end to end: a configuration in which some section declares `iid: {shared_parameter: t}` (for a `t` not
described by a later section) and that reads without error gives a model every call of which raises — for all data,
flags, draws and call histories. -/
theorem C50_configured_iid_fails {E N M : ℕ} (im : Imports V) (pre post : PyDict (Entry V)) (param t : String) (e : Entry V)
    (he : e.iidOf im = some (some t)) (ht : t ∉ post.keys) (r : Reader V)
    (hp : parseModels im (pre ++ (param, e) :: post) {} = .ok r) (cf : ConstructFlags) (zgrid : V) (pop : PyDict (Option Dist))
    (hr : Reachable (E := E) (N := N) (M := M) cf r.models r.priors zgrid pop) (env : CallEnv V E N M) :
    ∃ er, (modelCall cf r.models r.priors zgrid pop env).2.2 = .error er := by
  have hnd := parse_nodup hp (by simp [PyDict.keys])
  have hsplit : ∀ (pre : PyDict (Entry V)) (r0 : Reader V), parseModels im (pre ++ (param, e) :: post) r0 = .ok r →
      ∃ r1 r2, addEntry im r1 (param, e) = .ok r2 ∧ parseModels im post r2 = .ok r := by
    intro pre
    induction pre with
    | nil =>
      intro r0 h
      simp only [List.nil_append, parseModels] at h
      cases h1 : addEntry im r0 (param, e) with
      | error er => rw [h1] at h; simp at h
      | ok r1 => rw [h1] at h; exact ⟨r0, r1, h1, h⟩
    | cons a l ih =>
      intro r0 h
      simp only [List.cons_append, parseModels] at h
      cases h1 : addEntry im r0 a with
      | error er => rw [h1] at h; simp at h
      | ok r1 => rw [h1] at h; exact ih r1 h
  obtain ⟨r1, r2, h1, h2⟩ := hsplit pre {} hp
  have hs : ∃ v, r2.models.get? t = some (.shared v) := by
    obtain ⟨_, s, _, ⟨h, _⟩ | ⟨t', h, h'⟩⟩ := addEntry_reads h1
    · rw [he] at h; simp at h
    · rw [he] at h; injection h with h; injection h with h; subst h
      exact ⟨param, by rw [h', PyDict.get?_set_self]⟩
  obtain ⟨v, hv⟩ := parse_keeps_shared h2 t ht hs
  exact C50_iid_sharing_fails cf r.models hnd r.priors zgrid t v (PyDict.mem_of_get? hv) pop hr env

/-- **C70 fails** (collisions): sections `a` with hyper-parameter `b_c` and `a_b` with hyper-parameter `c` share the flat
name `a_b_c`; the configuration reads without error and the first one's prior is replaced by the second's. For all
names and all sub-dictionaries. -/
theorem C70_collision_fails (im : Imports V) (a b c : String) (h1 h2 : HP V) (m : String) (cls : Cls V) (d1 d2 : String)
    (ps1 ps2 : PyDict V) (hm : ¬ isMixture m) (hc : im.cls m = some cls)
    (e1 : h1.prior = some d1) (e1' : h1.prior_params = some ps1) (e2 : h2.prior = some d2) (e2' : h2.prior_params = some ps2)
    (i1 : im.prior d1 = true) (i2 : im.prior d2 = true) :
    ∃ r, parseModels im [(a, { model := some m, hyper_params := some [(b ++ "_" ++ c, h1)] }),
        (a ++ "_" ++ b, { model := some m, hyper_params := some [(c, h2)] })] {} = .ok r ∧
      r.priors.get? (a ++ "_" ++ (b ++ "_" ++ c)) = some (.prior d2 ps2) ∧
      r.sampling_params = [a ++ "_" ++ (b ++ "_" ++ c), a ++ "_" ++ (b ++ "_" ++ c)] := by
  have hkey : a ++ "_" ++ b ++ "_" ++ c = a ++ "_" ++ (b ++ "_" ++ c) := by simp only [String.append_assoc]
  refine ⟨_, by
    simp [parseModels, addEntry, hm, addModel, need, load, hc, addPriors, addPrior, e1, e1', e2, e2', i1, i2, addIid,
      bind, Except.bind, PyDict.keys]; rfl, ?_, ?_⟩
  · simp only [hkey, PyDict.get?_set_self]
  · simp only [hkey, List.nil_append, List.cons_append]

/-- **C70 fails** (missing priors): a hyper-parameter with neither prior nor value is silently skipped by the reader; the
model then raises in every call. -/
theorem C70_missing_prior_fails {E N M : ℕ} (im : Imports V) (conf : PyDict (Entry V)) (r : Reader V)
    (hp : parseModels im conf {} = .ok r) (hn : ((flatAll im conf).map Prod.fst).Nodup) (param : String) (c : Cls V)
    (hps : PyDict (HP V)) (hm : r.models.get? param = some (.pop c hps.keys)) (hp' : String) (h : HP V)
    (hh : (hp', h) ∈ hps) (hf : (param ++ "_" ++ hp', h) ∈ flatAll im conf) (ha : h.asks = none) (cf : ConstructFlags)
    (zgrid : V) (pop : PyDict (Option Dist)) (env : CallEnv V E N M) :
    ∃ er, (modelCall cf r.models r.priors zgrid pop env).2.2 = .error er := by
  have hnone : r.priors.get? (param ++ "_" ++ hp') = none := by
    rw [(C70_flatten_partial im conf r hp hn).1 _ h hf, ha]
  have hk : (hyperValues r.priors env.draw).get? (param ++ "_" ++ hp') = none := by
    rw [PyDict.get?_none_iff] at hnone ⊢
    simpa [hyperValues, PyDict.keys, Function.comp_def] using hnone
  have herr : ∀ l : List String, hp' ∈ l → ∃ er, kwargsOf (hyperValues r.priors env.draw) (param ++ "_") l = .error er := by
    intro l
    induction l with
    | nil => intro h; simp at h
    | cons x l ih =>
      intro hx
      simp only [kwargsOf]
      by_cases e : hp' = x
      · subst e; simp only [dictGet, hk]; exact ⟨_, rfl⟩
      · obtain ⟨er, her⟩ := ih (by simpa [e] using hx)
        cases dictGet (hyperValues r.priors env.draw) (param ++ "_" ++ x) with
        | error er => exact ⟨er, rfl⟩
        | ok v => simp only [her]; exact ⟨_, rfl⟩
  obtain ⟨er, her⟩ := herr hps.keys (List.mem_map.2 ⟨_, hh, rfl⟩)
  have hev : ∃ e, evalSpec (hyperValues r.priors env.draw) zgrid param (.pop c hps.keys) = .error e := by
    simp only [evalSpec, toString, her]; exact ⟨er, rfl⟩
  obtain ⟨e, he⟩ := loop_err_of _ zgrid (by simp) hev r.models (PyDict.mem_of_get? hm) ⟨pop, [], none⟩
  have : (buildModels r.models r.priors zgrid env.draw pop).err = some e := by
    unfold buildModels
    simp only
    rw [iid_err_mono _ _ _ he]; exact he
  unfold modelCall
  simp only [this]
  exact ⟨e, rfl⟩

/-- a configuration with a plain model (one sampled, one fixed hyper-parameter) reads successfully with distinct names -/
example (cls : Cls ℝ) : ∃ r, parseModels { cls := fun _ => some cls, mix := fun _ => none, prior := fun _ => true, len := fun _ => 0 }
    [("mass_1", { model := some "Powerlaw", hyper_params := some [("alpha", { prior := some "Normal", prior_params := some [] }),
      ("minimum", { value := some 2 })] })] ({} : Reader ℝ) = .ok r ∧ r.sampling_params = ["mass_1_alpha"] := by
  have hm : ¬ isMixture "Powerlaw" := by unfold isMixture; decide
  exact ⟨_, by simp [parseModels, addEntry, hm, addModel, need, load, addPriors, addPrior, addIid, bind, Except.bind]; rfl,
    rfl⟩

end GW
end
