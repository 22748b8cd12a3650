import Verif.Model.PipelineUtils
import Verif.Props.SplineModels

/-!
# C73: prior helpers register distinct sites
-/

open Finset
noncomputable section
open Classical
namespace GW

/-! ## specification -/

/-- the families of spline coefficients the helpers sample -/
inductive Part where
  | mass | q | a | tilt | a1 | a2 | tilt1 | tilt2 | z
  deriving DecidableEq

/-- public site names of a family: `false` for the coefficients, `true` for the smoothing penalty -/
def Part.pref : Part → Bool → String
  | .mass, false => "mass_cs" | .mass, true => "mass_smoothing_prior"
  | .q, false => "q_cs" | .q, true => "q_smoothing_prior"
  | .a, false => "a_cs" | .a, true => "a_smoothing_prior"
  | .tilt, false => "tilt_cs" | .tilt, true => "ct_smoothing_prior"
  | .a1, false => "a1_cs" | .a1, true => "a1_smoothing_prior"
  | .a2, false => "a2_cs" | .a2, true => "a2_smoothing_prior"
  | .tilt1, false => "tilt1_cs" | .tilt1, true => "ct1_smoothing_prior"
  | .tilt2, false => "tilt2_cs" | .tilt2, true => "ct2_smoothing_prior"
  | .z, false => "z_cs" | .z, true => "z_smoothing_prior"

/-- a requested family: the component's name, prior width, number of coefficients, penalty strength and order -/
structure Req where
  part : Part
  name : Option String
  sd : ℝ
  n : ℕ
  tau : ℝ
  deg : ℕ

/-- full site name: `mass_cs` or `mass_cs_<name>` -/
def siteName (p : Part) (pen : Bool) (name : Option String) : String :=
  p.pref pen ++ (match name with | some n => "_" ++ n | none => "")

/-- the coefficients handed back: the site's values; for the redshift family a leading zero is prepended -/
def Req.coefs (draws : String → ℕ → ℝ) (r : Req) : List ℝ :=
  match r.part, r.n with
  | .z, n + 1 => 0 :: (List.range n).map (draws (siteName r.part false r.name))
  | _, n => (List.range n).map (draws (siteName r.part false r.name))

/-- number of values sampled for a request: all but the pinned one -/
def Req.sampled (r : Req) : ℕ := match r.part with | .z => r.n - 1 | _ => r.n

/-- the two sites of a request: the sampled coefficients and the penalty of the coefficients handed back -/
def Req.sites (draws : String → ℕ → ℝ) (r : Req) : List PSite :=
  [.sample (siteName r.part false r.name) r.sd r.sampled,
   .factor (siteName r.part true r.name)
     (apply_difference_prior (r.coefs draws).length (fun i => (r.coefs draws).getD i 0) r.tau r.deg)]

/-- a call of one of the three helpers with sizes and penalty strengths given -/
inductive Call where
  | masses (nm nq : Option ℕ) (tm tq : ℝ) (name : Option String) (sm sq : ℝ) (dm dq : ℕ)
  | spins (na nt : ℕ) (ta tt : ℝ) (name : Option String) (iid : Bool) (sa st : ℝ) (da dt : ℕ)
  | redshift (nz : ℕ) (tz : ℝ) (name : Option String) (sz : ℝ) (dz : ℕ)

/-- what a call asks for, in the order of registration -/
def Call.reqs : Call → List Req
  | .masses nm nq tm tq name sm sq dm dq =>
    (match nm with | some n => [⟨.mass, name, sm, n, tm, dm⟩] | none => []) ++
    (match nq with | some n => [⟨.q, name, sq, n, tq, dq⟩] | none => [])
  | .spins na nt ta tt name true sa st da dt => [⟨.a, name, sa, na, ta, da⟩, ⟨.tilt, name, st, nt, tt, dt⟩]
  | .spins na nt ta tt name false sa st da dt => [⟨.a1, name, sa, na, ta, da⟩, ⟨.a2, name, sa, na, ta, da⟩,
      ⟨.tilt1, name, st, nt, tt, dt⟩, ⟨.tilt2, name, st, nt, tt, dt⟩]
  | .redshift nz tz name sz dz => [⟨.z, name, sz, nz, tz, dz⟩]

/-- the arrays a call returns, from the coefficients in order of registration: independent spins come back as
`a1, tilt1, a2, tilt2` -/
def Call.arrange : Call → List (List ℝ) → List (List ℝ)
  | .spins _ _ _ _ _ false _ _ _ _, [a1, a2, t1, t2] => [a1, t1, a2, t2]
  | _, l => l

/-- something is requested, and the redshift spline has at least one coefficient -/
def Call.Valid : Call → Prop
  | .masses nm nq _ _ _ _ _ _ _ => nm.isSome ∨ nq.isSome
  | .redshift nz _ _ _ _ => 0 < nz
  | _ => True

/-- executing a call with the code -/
def Call.run (draws : String → ℕ → ℝ) : Call → Prog (List (List ℝ))
  | .masses nm nq tm tq name sm sq dm dq => do
    match ← bspline_mass_prior draws nm nq (some tm) (some tq) name sm sq dm dq with
    | .one c => pure [c]
    | .both m q => pure [m, q]
  | .spins na nt ta tt name iid sa st da dt => bspline_spin_prior draws (some na) (some nt) (some ta) (some tt) name iid sa st da dt
  | .redshift nz tz name sz dz => do pure [← bspline_redshift_prior draws (some nz) (some tz) name sz dz]

/-- executing calls one after the other, as a model function does -/
def runCalls (draws : String → ℕ → ℝ) : List Call → Prog (List (List (List ℝ)))
  | [] => pure []
  | c :: cs => do
    let o ← c.run draws
    let os ← runCalls draws cs
    pure (o :: os)

/-! ## proofs -/

theorem pref_prefix : ∀ p b p' b', (Part.pref p b).toList <+: (Part.pref p' b').toList → p = p' ∧ b = b' := by
  intro p b p' b'
  cases p <;> cases b <;> cases p' <;> cases b' <;> decide

theorem suffix_inj {n n' : Option String} (h : suffix n = suffix n') : n = n' := by
  have h2 := congrArg String.toList h
  cases n <;> cases n' <;> simp_all [suffix]

theorem siteName_eq (p : Part) (b : Bool) (n : Option String) : siteName p b n = p.pref b ++ suffix n := by cases n <;> rfl

/-- site names determine family, kind and component name -/
theorem siteName_inj {p p' : Part} {b b' : Bool} {n n' : Option String} (h : siteName p b n = siteName p' b' n') :
    p = p' ∧ b = b' ∧ n = n' := by
  rw [siteName_eq, siteName_eq] at h
  have h2 := congrArg String.toList h
  rw [String.toList_append, String.toList_append] at h2
  have h3 : p = p' ∧ b = b' := by
    rcases List.append_eq_append_iff.1 h2 with ⟨l, e, -⟩ | ⟨l, e, -⟩
    · exact pref_prefix p b p' b' ⟨l, e.symm⟩
    · have := pref_prefix p' b' p b ⟨l, e.symm⟩
      exact ⟨this.1.symm, this.2.symm⟩
  obtain ⟨rfl, rfl⟩ := h3
  have h4 := List.append_cancel_left h2
  exact ⟨rfl, rfl, suffix_inj (String.toList_inj.1 h4)⟩

/-- sampling one family and registering its penalty -/
def block (draws : String → ℕ → ℝ) (r : Req) : Prog (List ℝ) := fun tr =>
  if siteName r.part false r.name ∈ tr.map PSite.name then .error .assertionError
  else if siteName r.part true r.name ∈ (tr.map PSite.name) ++ [siteName r.part false r.name] then .error .assertionError
  else .ok (r.coefs draws, tr ++ r.sites draws)

theorem sample_penalty (draws : String → ℕ → ℝ) (r : Req) (hp : r.part ≠ .z) :
    (do let cs ← sampleNormal draws (r.part.pref false ++ suffix r.name) r.sd (some r.n)
        penaltyFactor (r.part.pref true ++ suffix r.name) cs (some r.tau) r.deg
        pure cs : Prog (List ℝ)) = block draws r := by
  have hc : r.coefs draws = (List.range r.n).map (draws (siteName r.part false r.name)) := by
    unfold Req.coefs
    split
    · simp_all
    · rfl
  have hs : r.sampled = r.n := by
    unfold Req.sampled
    split
    · simp_all
    · rfl
  funext tr
  simp only [block, sampleNormal, penaltyFactor, emit, bind, StateT.bind, Except.bind, pure, StateT.pure, Except.pure, ← siteName_eq,
    PSite.name, Req.sites, hc, hs]
  by_cases h1 : siteName r.part false r.name ∈ List.map PSite.name tr
  · simp only [h1, if_true]
  · simp only [h1, if_false, List.map_append, List.map_cons, List.map_nil, PSite.name]
    split_ifs <;> simp

theorem block_bind {α : Type} (draws : String → ℕ → ℝ) (r : Req) (hp : r.part ≠ .z) (f : List ℝ → Prog α) :
    (do let cs ← sampleNormal draws (r.part.pref false ++ suffix r.name) r.sd (some r.n)
        penaltyFactor (r.part.pref true ++ suffix r.name) cs (some r.tau) r.deg
        f cs : Prog α) = (do let cs ← block draws r; f cs) := by
  rw [← sample_penalty draws r hp]; simp

theorem redshift_block (draws : String → ℕ → ℝ) (nz : ℕ) (tz : ℝ) (name : Option String) (sz : ℝ) (dz : ℕ) (h : 0 < nz) :
    bspline_redshift_prior draws (some nz) (some tz) name sz dz = block draws ⟨.z, name, sz, nz, tz, dz⟩ := by
  obtain ⟨n, rfl⟩ : ∃ n, nz = n + 1 := ⟨nz - 1, by omega⟩
  have e1 : "z_cs" ++ suffix name = siteName .z false name := by rw [siteName_eq]; rfl
  have e2 : "z_smoothing_prior" ++ suffix name = siteName .z true name := by rw [siteName_eq]; rfl
  funext tr
  simp only [bspline_redshift_prior, e1, e2, block, sampleNormal, penaltyFactor, emit, bind, StateT.bind, Except.bind, pure, StateT.pure, Except.pure,
    PSite.name, Req.sites, Req.coefs, Req.sampled]
  by_cases h1 : siteName .z false name ∈ List.map PSite.name tr
  · simp only [h1, if_true]
  · simp only [h1, if_false, List.map_append, List.map_cons, List.map_nil, PSite.name]
    split_ifs <;> simp

/-- all requested families one after the other -/
def runReqs (draws : String → ℕ → ℝ) : List Req → Prog (List (List ℝ))
  | [] => pure []
  | r :: rs => do
    let c ← block draws r
    let cs ← runReqs draws rs
    pure (c :: cs)

theorem run_eq (draws : String → ℕ → ℝ) (c : Call) (hv : c.Valid) :
    c.run draws = (do let o ← runReqs draws c.reqs; pure (c.arrange o)) := by
  cases c with
  | masses nm nq tm tq name sm sq dm dq =>
    have h1 := fun n α f => block_bind (α := α) draws ⟨.mass, name, sm, n, tm, dm⟩ (by simp) f
    have h2 := fun n α f => block_bind (α := α) draws ⟨.q, name, sq, n, tq, dq⟩ (by simp) f
    simp only [Part.pref] at h1 h2
    cases nm with
    | none =>
      cases nq with
      | none => simp [Call.Valid] at hv
      | some n =>
        simp only [Call.run, Call.reqs, bspline_mass_prior, runReqs, Call.arrange, Option.isSome, Option.isNone, bind_assoc, pure_bind, if_true,
          Bool.false_eq_true, if_false, and_true, and_false, false_and, List.nil_append, h2, Bool.not_true, Bool.not_false, and_self]
    | some m =>
      cases nq with
      | none =>
        simp only [Call.run, Call.reqs, bspline_mass_prior, runReqs, Call.arrange, Option.isSome, Option.isNone, bind_assoc, pure_bind, if_true,
          Bool.false_eq_true, if_false, and_true, and_false, false_and, List.append_nil, h1, Bool.not_true, Bool.not_false, and_self]
      | some n =>
        simp only [Call.run, Call.reqs, bspline_mass_prior, runReqs, Call.arrange, Option.isSome, Option.isNone, bind_assoc, pure_bind, if_true,
          Bool.false_eq_true, if_false, and_true, and_false, false_and, List.cons_append, List.nil_append, h1, h2, Bool.not_true, Bool.not_false, and_self]
  | spins na nt ta tt name iid sa st da dt =>
    cases iid with
    | true =>
      have h1 := fun α f => block_bind (α := α) draws ⟨.a, name, sa, na, ta, da⟩ (by simp) f
      have h2 := fun α f => block_bind (α := α) draws ⟨.tilt, name, st, nt, tt, dt⟩ (by simp) f
      simp only [Part.pref] at h1 h2
      simp only [Call.run, Call.reqs, bspline_spin_prior, runReqs, Call.arrange, h1, h2, if_true, bind_assoc, pure_bind]
    | false =>
      have h1 := fun α f => block_bind (α := α) draws ⟨.a1, name, sa, na, ta, da⟩ (by simp) f
      have h2 := fun α f => block_bind (α := α) draws ⟨.a2, name, sa, na, ta, da⟩ (by simp) f
      have h3 := fun α f => block_bind (α := α) draws ⟨.tilt1, name, st, nt, tt, dt⟩ (by simp) f
      have h4 := fun α f => block_bind (α := α) draws ⟨.tilt2, name, st, nt, tt, dt⟩ (by simp) f
      simp only [Part.pref] at h1 h2 h3 h4
      simp only [Call.run, Call.reqs, bspline_spin_prior, runReqs, Call.arrange, h1, h2, h3, h4, Bool.false_eq_true, if_false, bind_assoc, pure_bind]
  | redshift nz tz name sz dz =>
    simp only [Call.run, Call.reqs, runReqs, Call.arrange, redshift_block draws nz tz name sz dz hv, bind_assoc, pure_bind]

/-- family and component name of a request -/
def Req.id (r : Req) : Part × Option String := (r.part, r.name)

theorem sites_names (draws : String → ℕ → ℝ) (r : Req) : (r.sites draws).map PSite.name = [siteName r.part false r.name, siteName r.part true r.name] := rfl

theorem mem_names (draws : String → ℕ → ℝ) (done : List Req) (p : Part) (b : Bool) (n : Option String) :
    siteName p b n ∈ (done.flatMap (Req.sites draws)).map PSite.name ↔ (p, n) ∈ done.map Req.id := by
  simp only [List.map_flatMap, sites_names, List.mem_flatMap, List.mem_map, List.mem_cons, List.not_mem_nil, or_false]
  constructor
  · rintro ⟨r, hr, h | h⟩ <;> obtain ⟨rfl, -, rfl⟩ := siteName_inj h <;> exact ⟨r, hr, rfl⟩
  · rintro ⟨r, hr, h⟩
    simp only [Req.id, Prod.mk.injEq] at h
    obtain ⟨rfl, rfl⟩ := h
    refine ⟨r, hr, ?_⟩
    cases b
    · exact Or.inl rfl
    · exact Or.inr rfl

theorem names_nodup (draws : String → ℕ → ℝ) (rs : List Req) (h : (rs.map Req.id).Nodup) : ((rs.flatMap (Req.sites draws)).map PSite.name).Nodup := by
  induction rs with
  | nil => simp
  | cons r rs ih =>
    rw [List.map_cons, List.nodup_cons] at h
    rw [List.flatMap_cons, List.map_append, sites_names]
    refine List.nodup_append.2 ⟨?_, ih h.2, ?_⟩
    · simp only [List.nodup_cons, List.mem_cons, List.not_mem_nil, or_false, not_false_eq_true, List.nodup_nil, and_true]
      intro e
      have := (siteName_inj e).2.1
      simp at this
    · intro x hx y hy e
      subst e
      simp only [List.mem_cons, List.not_mem_nil, or_false] at hx
      rcases hx with rfl | rfl <;> exact h.1 ((mem_names draws rs _ _ _).1 hy)

theorem block_run (draws : String → ℕ → ℝ) (done : List Req) (r : Req) :
    block draws r (done.flatMap (Req.sites draws)) =
      if r.id ∈ done.map Req.id then .error .assertionError
      else .ok (r.coefs draws, (done ++ [r]).flatMap (Req.sites draws)) := by
  unfold block
  by_cases h : r.id ∈ done.map Req.id
  · rw [if_pos h, if_pos ((mem_names draws done _ _ _).2 h)]
  · have h1 : siteName r.part false r.name ∉ (done.flatMap (Req.sites draws)).map PSite.name := fun e => h ((mem_names draws done _ _ _).1 e)
    have h2 : siteName r.part true r.name ∉ (done.flatMap (Req.sites draws)).map PSite.name ++ [siteName r.part false r.name] := by
      intro e
      rcases List.mem_append.1 e with e | e
      · exact h ((mem_names draws done _ _ _).1 e)
      · have := (siteName_inj (List.mem_singleton.1 e)).2.1
        simp at this
    rw [if_neg h, if_neg h1, if_neg h2]
    simp

theorem runReqs_run (draws : String → ℕ → ℝ) : ∀ (rs done : List Req), (done.map Req.id).Nodup →
    runReqs draws rs (done.flatMap (Req.sites draws)) =
      if ((done ++ rs).map Req.id).Nodup then .ok (rs.map (Req.coefs draws), (done ++ rs).flatMap (Req.sites draws))
      else .error .assertionError
  | [], done, h => by
    rw [List.append_nil, if_pos h]; rfl
  | r :: rs, done, h => by
    have e : runReqs draws (r :: rs) (done.flatMap (Req.sites draws)) =
        (match block draws r (done.flatMap (Req.sites draws)) with
        | .error e => .error e
        | .ok (c, tr) => match runReqs draws rs tr with
          | .error e => .error e
          | .ok (cs, tr) => .ok (c :: cs, tr)) := by
      simp only [runReqs, bind, StateT.bind, Except.bind, pure, StateT.pure, Except.pure]
      rcases block draws r _ with e | ⟨c, tr⟩
      · rfl
      · dsimp only
        rcases runReqs draws rs tr with e | ⟨cs, tr⟩ <;> rfl
    rw [e, block_run]
    by_cases h1 : r.id ∈ done.map Req.id
    · rw [if_pos h1, if_neg]
      intro hn
      rw [List.map_append, List.nodup_append] at hn
      exact hn.2.2 _ h1 _ (by simp) rfl
    · have hd : ((done ++ [r]).map Req.id).Nodup := by
        rw [List.map_append]
        refine List.nodup_append.2 ⟨h, by simp, ?_⟩
        intro a ha b hb e
        simp only [List.map_cons, List.map_nil, List.mem_singleton] at hb
        subst hb; subst e; exact h1 ha
      rw [if_neg h1]
      dsimp only
      rw [runReqs_run draws rs (done ++ [r]) hd, List.append_assoc, List.singleton_append]
      by_cases h2 : ((done ++ r :: rs).map Req.id).Nodup
      · simp only [if_pos h2]; rfl
      · simp only [if_neg h2]

theorem runCalls_run (draws : String → ℕ → ℝ) : ∀ (cs : List Call) (done : List Req), (∀ c ∈ cs, c.Valid) → (done.map Req.id).Nodup →
    runCalls draws cs (done.flatMap (Req.sites draws)) =
      if ((done ++ cs.flatMap Call.reqs).map Req.id).Nodup then
        .ok (cs.map fun c => c.arrange (c.reqs.map (Req.coefs draws)), (done ++ cs.flatMap Call.reqs).flatMap (Req.sites draws))
      else .error .assertionError
  | [], done, _, h => by
    rw [List.flatMap_nil, List.append_nil, if_pos h]; rfl
  | c :: cs, done, hv, h => by
    have e : runCalls draws (c :: cs) (done.flatMap (Req.sites draws)) =
        (match runReqs draws c.reqs (done.flatMap (Req.sites draws)) with
        | .error e => .error e
        | .ok (o, tr) => match runCalls draws cs tr with
          | .error e => .error e
          | .ok (os, tr) => .ok (c.arrange o :: os, tr)) := by
      rw [runCalls, run_eq draws c (hv c (by simp))]
      simp only [bind, StateT.bind, Except.bind, pure, StateT.pure, Except.pure]
      rcases runReqs draws c.reqs _ with e | ⟨o, tr⟩
      · rfl
      · dsimp only
        rcases runCalls draws cs tr with e | ⟨os, tr⟩ <;> rfl
    rw [e, runReqs_run draws _ _ h]
    by_cases h1 : ((done ++ c.reqs).map Req.id).Nodup
    · rw [if_pos h1]
      dsimp only
      rw [runCalls_run draws cs (done ++ c.reqs) (fun c hc => hv c (by simp [hc])) h1, List.flatMap_cons, List.append_assoc]
      by_cases h2 : ((done ++ (c.reqs ++ cs.flatMap Call.reqs)).map Req.id).Nodup
      · simp only [if_pos h2]; rfl
      · simp only [if_neg h2]
    · rw [if_neg h1, if_neg]
      intro hn
      refine h1 ?_
      rw [List.flatMap_cons, ← List.append_assoc, List.map_append] at hn
      exact (List.nodup_append.1 hn).1

/-- **C73.** Any sequence of calls of the three prior helpers that requests every coefficient family at most once under every component
name succeeds: every call returns its arrays, the registered sites are exactly the requested coefficients and their penalties,
and all registered names are different. -/
theorem C73_distinct_sites (draws : String → ℕ → ℝ) (cs : List Call) (hv : ∀ c ∈ cs, c.Valid)
    (hd : ((cs.flatMap Call.reqs).map Req.id).Nodup) :
    runCalls draws cs [] = .ok (cs.map fun c => c.arrange (c.reqs.map (Req.coefs draws)), (cs.flatMap Call.reqs).flatMap (Req.sites draws)) ∧
    (((cs.flatMap Call.reqs).flatMap (Req.sites draws)).map PSite.name).Nodup := by
  have := runCalls_run draws cs [] hv (by simp)
  rw [List.nil_append, if_pos hd] at this
  exact ⟨this, names_nodup draws _ hd⟩

/-- **C73 (converse).** Requesting a family twice under one component name is refused; nothing is silently shared. -/
theorem C73_repeated_refused (draws : String → ℕ → ℝ) (cs : List Call) (hv : ∀ c ∈ cs, c.Valid)
    (hd : ¬ ((cs.flatMap Call.reqs).map Req.id).Nodup) : runCalls draws cs [] = .error .assertionError := by
  have := runCalls_run draws cs [] hv (by simp)
  rw [List.nil_append, if_neg hd] at this
  exact this

/-- **C73 (sizes).** Every array handed back has the requested number of coefficients. -/
theorem C73_sizes (draws : String → ℕ → ℝ) (r : Req) : (r.coefs draws).length = r.n := by
  obtain ⟨p, name, sd, n, tau, deg⟩ := r
  cases p <;> cases n <;> simp [Req.coefs]

/-- **C73 (errors).** No size at all is an `AssertionError`; a missing size or penalty strength is a `TypeError` - with the default
arguments of the spin and redshift helpers, always. -/
theorem C73_missing_arguments (draws : String → ℕ → ℝ) (tr : List PSite) :
    (∀ tm tq name sm sq dm dq, bspline_mass_prior draws none none tm tq name sm sq dm dq tr = .error .assertionError) ∧
    (∀ nt ta tt name iid sa st da dt, bspline_spin_prior draws none nt ta tt name iid sa st da dt tr = .error .typeError) ∧
    (∀ tz name sz dz, bspline_redshift_prior draws none tz name sz dz tr = .error .typeError) ∧
    (∀ na nt tt name iid sa st da dt, ∃ e, bspline_spin_prior draws (some na) nt none tt name iid sa st da dt tr = .error e) ∧
    (∀ nz name sz dz, ∃ e, bspline_redshift_prior draws (some nz) none name sz dz tr = .error e) := by
  refine ⟨fun _ _ _ _ _ _ _ => rfl, fun _ _ _ _ iid _ _ _ _ => by cases iid <;> rfl, fun _ _ _ _ => rfl, ?_, ?_⟩
  · intro na nt tt name iid sa st da dt
    cases iid <;> simp only [bspline_spin_prior, sampleNormal, penaltyFactor, emit, bind, StateT.bind, Except.bind, pure, StateT.pure, Except.pure,
      if_true, Bool.false_eq_true, if_false] <;> split_ifs <;> exact ⟨_, rfl⟩
  · intro nz name sz dz
    rcases nz with _ | n
    · exact ⟨_, rfl⟩
    · simp only [bspline_redshift_prior, sampleNormal, penaltyFactor, emit, bind, StateT.bind, Except.bind, pure, StateT.pure, Except.pure]
      split_ifs <;> exact ⟨_, rfl⟩

/-- the shipped B-spline example (two sub-populations for the masses) meets the hypotheses -/
example (draws : String → ℕ → ℝ) : ∃ o tr, runCalls draws [.masses (some 50) (some 30) 1 1 none 15 5 1 1,
    .masses (some 20) none 1 1 (some "peak") 15 5 1 1, .spins 16 16 25 25 none false 5 5 2 2, .spins 16 16 25 25 none true 5 5 2 2,
    .redshift 20 1 none 1 2] [] = .ok (o, tr) ∧ (tr.map PSite.name).Nodup := by
  have h := C73_distinct_sites draws [.masses (some 50) (some 30) 1 1 none 15 5 1 1,
    .masses (some 20) none 1 1 (some "peak") 15 5 1 1, .spins 16 16 25 25 none false 5 5 2 2, .spins 16 16 25 25 none true 5 5 2 2,
    .redshift 20 1 none 1 2] (by simp [Call.Valid]) (by simp [Call.reqs, Req.id])
  exact ⟨_, _, h⟩

example (draws : String → ℕ → ℝ) : runCalls draws [.redshift 20 1 none 1 2, .redshift 5 1 none 1 2] [] = .error .assertionError :=
  C73_repeated_refused draws _ (by simp [Call.Valid]) (by simp [Call.reqs, Req.id])

end GW
end
