import Verif.Props.PPC
import Mathlib.Probability.Independence.InfinitePi
import Mathlib.MeasureTheory.Measure.Lebesgue.Basic

/-! # C108: the law of the posterior predictive draws -/

noncomputable section
open Classical MeasureTheory Set
open scoped ENNReal
namespace GW
open _root_.F

theorem card_eq_iff {n : ℕ} (S : Finset (Fin n)) (hS : ∀ i ∈ S, ∀ j, j ≤ i → j ∈ S) (j : Fin n) :
    S.card = j.1 ↔ j ∉ S ∧ ∀ i < j, i ∈ S := by
  constructor
  · intro h
    refine ⟨fun hj => ?_, fun i hi => ?_⟩
    · rw [card_initial S hS, h] at hj; exact lt_irrefl _ hj
    · rw [card_initial S hS, h]; exact hi
  · rintro ⟨h1, h2⟩
    rw [card_initial S hS, not_lt] at h1
    refine le_antisymm h1 (not_lt.1 fun h => ?_)
    have := h2 ⟨S.card, h.trans j.2⟩ h
    rw [card_initial S hS] at this
    exact lt_irrefl _ this

/-- the index drawn is `j` exactly when the uniform number falls in the interval of length `p j / Σ p` that belongs to `j` -/
theorem jaxChoice_eq_iff {n : ℕ} {u : ℝ} (hu1 : u < 1) {p : Fin n → ℝ} (hp : ∀ i, 0 ≤ p i) (hs : 0 < ∑ i, p i) (j : Fin n) :
    jaxChoice u (fun i => fin (p i)) = j.1 ↔
      1 - (∑ i ∈ Finset.univ.filter (fun i => i < j), p i + p j) / ∑ i, p i ≤ u ∧ u < 1 - (∑ i ∈ Finset.univ.filter (fun i => i < j), p i) / ∑ i, p i := by
  set S := ∑ i, p i with hSdef
  set B := ∑ i ∈ Finset.univ.filter (fun i => i < j), p i with hB
  set C : Fin n → ℝ := fun i => ∑ j ∈ Finset.univ.filter (fun j => j ≤ i), p j with hC
  have hr0 : 0 < S * (1 - u) := mul_pos hs (by linarith)
  have hk : jaxChoice u (fun i => fin (p i)) = (Finset.univ.filter (fun i => C i < S * (1 - u))).card := by
    unfold jaxChoice
    simp only [sum_fin, one_def, sub_fin, mul_fin, lt_fin]
    rfl
  have hmono : ∀ i j : Fin n, j ≤ i → C j ≤ C i := by
    intro i j hji
    refine Finset.sum_le_sum_of_subset_of_nonneg ?_ (fun i _ _ => hp i)
    intro x hx
    simp only [Finset.mem_filter, Finset.mem_univ, true_and] at hx ⊢
    exact hx.trans hji
  have hCj : C j = B + p j := by
    have : Finset.univ.filter (fun i => i ≤ j) = insert j (Finset.univ.filter (fun i => i < j)) := by
      ext x
      simp only [Finset.mem_filter, Finset.mem_univ, true_and, Finset.mem_insert, le_iff_eq_or_lt]
    simp only [hC, hB, this]
    rw [Finset.sum_insert (by simp), add_comm]
  have hlt : (∀ i < j, C i < S * (1 - u)) ↔ B < S * (1 - u) := by
    constructor
    · intro h
      rcases Nat.eq_zero_or_pos j.1 with h0 | h0
      · have : Finset.univ.filter (fun i => i < j) = ∅ := by
          ext x
          simp only [Finset.mem_filter, Finset.mem_univ, true_and, Fin.lt_def, h0, Nat.not_lt_zero]
          simp
        rw [hB, this, Finset.sum_empty]
        exact hr0
      · let i : Fin n := ⟨j.1 - 1, by omega⟩
        have : B = C i := by
          refine Finset.sum_congr ?_ fun _ _ => rfl
          ext x
          simp only [Finset.mem_filter, Finset.mem_univ, true_and, Fin.lt_def, Fin.le_def, i]
          omega
        rw [this]
        exact h i (by simp only [Fin.lt_def, i]; omega)
    · intro h i hi
      refine lt_of_le_of_lt ?_ h
      refine Finset.sum_le_sum_of_subset_of_nonneg ?_ (fun i _ _ => hp i)
      intro x hx
      simp only [Finset.mem_filter, Finset.mem_univ, true_and] at hx ⊢
      exact hx.trans_lt hi
  rw [hk, card_eq_iff]
  · simp only [Finset.mem_filter, Finset.mem_univ, true_and, not_lt, hlt, hCj]
    rw [sub_le_comm, le_div_iff₀' hs, lt_sub_comm, div_lt_iff₀' hs]
  · intro i hi k hki
    simp only [Finset.mem_filter, Finset.mem_univ, true_and] at hi ⊢
    exact (hmono i k hki).trans_lt hi

/-- the share of sample `j` in the weights `w` -/
def share {n : ℕ} (w : Fin n → ℝ) (j : Fin n) : ℝ := w j / ∑ i, w i

theorem ppcDraw_law {n : ℕ} {w : Fin n → ℝ} (hw : ∀ i, 0 ≤ w i) (hs : 0 < ∑ i, w i) (j : Fin n) :
    MeasurableSet {u : ℝ | u ∈ Ico (0 : ℝ) 1 ∧ ppcDraw u (fun i => fin (w i)) = j.1} ∧
      volume {u : ℝ | u ∈ Ico (0 : ℝ) 1 ∧ ppcDraw u (fun i => fin (w i)) = j.1} = ENNReal.ofReal (share w j) := by
  set p : Fin n → ℝ := fun i => w i / ∑ k, w k with hp
  have hp0 : ∀ i, 0 ≤ p i := fun i => div_nonneg (hw i) hs.le
  have hp1 : ∑ i, p i = 1 := by
    simp only [hp, ← Finset.sum_div]
    exact div_self hs.ne'
  have he : ∀ u, ppcDraw u (fun i => fin (w i)) = jaxChoice u (fun i => fin (p i)) := by
    intro u
    unfold ppcDraw
    refine congrArg _ (funext fun j => ?_)
    rw [sum_fin, div_fin hs.ne']
  set B := ∑ i ∈ Finset.univ.filter (fun i => i < j), p i with hB
  have hB0 : 0 ≤ B := Finset.sum_nonneg fun i _ => hp0 i
  have hBj : B + p j ≤ 1 := by
    rw [← hp1, hB, add_comm, ← Finset.sum_insert (a := j) (s := Finset.univ.filter (fun i => i < j)) (f := p) (by simp)]
    exact Finset.sum_le_sum_of_subset_of_nonneg (Finset.subset_univ _) fun i _ _ => hp0 i
  have hset : {u : ℝ | u ∈ Ico (0 : ℝ) 1 ∧ ppcDraw u (fun i => fin (w i)) = j.1} = Ico (1 - (B + p j)) (1 - B) := by
    ext u
    simp only [mem_ofPred_eq, mem_Ico]
    constructor
    · rintro ⟨⟨h0, h1⟩, h2⟩
      rw [he, jaxChoice_eq_iff h1 hp0 (by rw [hp1]; norm_num), hp1, div_one, div_one] at h2
      exact h2
    · intro h
      have h1 : u < 1 := h.2.trans_le (by linarith)
      refine ⟨⟨by linarith [h.1], h1⟩, ?_⟩
      rw [he, jaxChoice_eq_iff h1 hp0 (by rw [hp1]; norm_num), hp1, div_one, div_one]
      exact h
  rw [hset]
  refine ⟨measurableSet_Ico, ?_⟩
  rw [Real.volume_Ico]
  congr 1
  simp only [share, hp]
  ring

/-- a random generator: the numbers made from different keys are independent and uniform on `[0, 1)` -/
structure UniformGenerator {Ω : Type*} [MeasurableSpace Ω] (P : Measure Ω) (G : Key → Ω → ℝ) : Prop where
  meas : ∀ k, Measurable (G k)
  indep : ProbabilityTheory.iIndepFun G P
  law : ∀ k, P.map (G k) = volume.restrict (Ico 0 1)
  range : ∀ k ω, 0 ≤ G k ω ∧ G k ω < 1

/-- the key event `e` uses for its observed (`false`) or predicted (`true`) draw -/
def eventKey {E : ℕ} (x : Fin E × Bool) : Key := if x.2 then (Key.seed x.1).split2 else (Key.seed x.1).split1

theorem eventKey_injective {E : ℕ} : Function.Injective (eventKey (E := E)) := by
  rintro ⟨a, b⟩ ⟨c, d⟩ h
  unfold eventKey at h
  cases b <;> cases d <;> simp at h
  · exact Prod.ext (Fin.ext h) rfl
  · exact Prod.ext (Fin.ext h) rfl

/-- **C108 (law).** With a generator whose numbers are independent and uniform, the posterior predictive check records for every event the
parameters of one posterior sample `J e` and one injection `K e`; all these indices are independent, and each is drawn with probability
proportional to its weight after the mass cuts.  Partial; missing: independence of two calls: `C108_calls_fails`. -/
theorem C108_law_partial {Ω : Type*} [MeasurableSpace Ω] {P : Measure Ω} {G : Key → Ω → ℝ} (hG : UniformGenerator P G)
    {E N M : ℕ} (fl : Flags) (w : Fin E → Fin N → ℝ) (v : Fin M → ℝ) (n : ℕ)
    (Tobs : F) (hv : Option F) (unscaled : F) (p : PPC E N M) (hfl : fl.ok)
    (hhv : fl.reconstruct_rate = true → hv ≠ none) (hindv : p.indv = none) (hE : 0 < E)
    (hw : ∀ e i, 0 ≤ w e i) (hv0 : ∀ i, 0 ≤ v i)
    (m1 q : Fin E → Fin N → ℝ) (im1 iq : Fin M → ℝ)
    (hm1 : p.pedata "mass_1" = some fun e j => fin (m1 e j)) (hq : p.pedata "mass_ratio" = some fun e j => fin (q e j))
    (him1 : p.injdata "mass_1" = some fun k => fin (im1 k)) (hiq : p.injdata "mass_ratio" = some fun k => fin (iq k))
    (a b c : ℝ) (ha : p.m1min = fin a) (hb : p.mmax = fin b) (hc : p.m2min = fin c)
    (pd : String → Fin E → Fin N → F) (id : String → Fin M → F)
    (hpd : ∀ name ∈ p.param_names, p.pedata name = some (pd name))
    (hid : ∀ name ∈ p.param_names, p.injdata name = some (id name))
    (hadm : ∀ e, ∃ j, (a ≤ m1 e j ∧ m1 e j ≤ b ∧ c ≤ m1 e j * q e j) ∧ 0 < w e j)
    (hadmi : ∃ k, (a ≤ im1 k ∧ im1 k ≤ b ∧ c ≤ im1 k * iq k) ∧ 0 < v k) :
    ∃ (J : Ω → Fin E → Fin N) (K : Ω → Fin E → Fin M),
      (∀ ω, (hierarchical_likelihood fl (.single fun e i => encode fl.log (w e i)) (fun i => encode fl.log (v i)) n E Tobs hv
          unscaled (some { p with unif := fun k => G k ω })).1
        = (hierarchical_likelihood fl (.single fun e i => encode fl.log (w e i)) (fun i => encode fl.log (v i)) n E Tobs hv
          unscaled none).1 ++ (List.finRange E).flatMap fun e => ppcSites p.param_names pd id e (J ω e) (K ω e)) ∧
      ∀ (j : Fin E → Fin N) (k : Fin E → Fin M), P {ω | ∀ e, J ω e = j e ∧ K ω e = k e} =
        ∏ e, (ENNReal.ofReal (share (fun i => cutWeight a b c (m1 e i) (q e i) (w e i)) (j e)) *
          ENNReal.ofReal (share (fun i => cutWeight a b c (im1 i) (iq i) (v i)) (k e))) := by
  have hx0 : ∀ e i, 0 ≤ cutWeight a b c (m1 e i) (q e i) (w e i) := fun e i => by unfold cutWeight; split_ifs; exacts [hw e i, le_rfl]
  have hy0 : ∀ i, 0 ≤ cutWeight a b c (im1 i) (iq i) (v i) := fun i => by unfold cutWeight; split_ifs; exacts [hv0 i, le_rfl]
  have hxs : ∀ e, 0 < ∑ i, cutWeight a b c (m1 e i) (q e i) (w e i) := fun e => by
    obtain ⟨i, h1, h2⟩ := hadm e
    exact Finset.sum_pos' (fun i _ => hx0 e i) ⟨i, Finset.mem_univ _, by unfold cutWeight; rw [if_pos h1]; exact h2⟩
  have hys : 0 < ∑ i, cutWeight a b c (im1 i) (iq i) (v i) := by
    obtain ⟨i, h1, h2⟩ := hadmi
    exact Finset.sum_pos' (fun i _ => hy0 i) ⟨i, Finset.mem_univ _, by unfold cutWeight; rw [if_pos h1]; exact h2⟩
  choose J K hJ hK _ _ hsites using fun ω => ppc_exact fl w v n Tobs hv unscaled { p with unif := fun k => G k ω } hfl hhv hindv hE hw hv0 m1 q im1 iq hm1 hq
    him1 hiq a b c ha hb hc pd id hpd hid (fun k => hG.range k ω) hadm hadmi
  refine ⟨J, K, hsites, fun j k => ?_⟩
  set A : Fin E × Bool → Set ℝ := fun x => if x.2 then {u | u ∈ Ico (0 : ℝ) 1 ∧ ppcDraw u (fun i => fin (cutWeight a b c (im1 i) (iq i) (v i))) = (k x.1).1}
    else {u | u ∈ Ico (0 : ℝ) 1 ∧ ppcDraw u (fun i => fin (cutWeight a b c (m1 x.1 i) (q x.1 i) (w x.1 i))) = (j x.1).1} with hA
  have hAm : ∀ x, MeasurableSet (A x) := by
    rintro ⟨e, b'⟩
    cases b'
    · exact (ppcDraw_law (hx0 e) (hxs e) (j e)).1
    · exact (ppcDraw_law hy0 hys (k e)).1
  have hset : {ω | ∀ e, J ω e = j e ∧ K ω e = k e} = ⋂ x ∈ (Finset.univ : Finset (Fin E × Bool)), (G (eventKey x)) ⁻¹' A x := by
    ext ω
    simp only [mem_ofPred_eq, mem_iInter, Finset.mem_univ, true_implies, mem_preimage, Prod.forall, Bool.forall_bool]
    refine forall_congr' fun e => ?_
    simp only [hA, eventKey, Bool.false_eq_true, if_false, if_true, mem_ofPred_eq, mem_Ico, hG.range, true_and, and_self, Fin.ext_iff, hJ, hK]
  have hvol : ∀ x, P (G (eventKey x) ⁻¹' A x) = volume (A x) := by
    intro x
    rw [← Measure.map_apply (hG.meas _) (hAm x), hG.law, Measure.restrict_apply (hAm x), inter_eq_left.2]
    rintro u hu
    simp only [hA] at hu
    split_ifs at hu
    · exact hu.1
    · exact hu.1
  rw [hset, (hG.indep.precomp eventKey_injective).measure_inter_preimage_eq_mul Finset.univ fun x _ => hAm x, Finset.prod_congr rfl fun x _ => hvol x,
    Fintype.prod_prod_type]
  refine Finset.prod_congr rfl fun e _ => ?_
  rw [Fintype.prod_bool, mul_comm]
  congr 1
  · exact (ppcDraw_law (hx0 e) (hxs e) (j e)).2
  · exact (ppcDraw_law hy0 hys (k e)).2

/-- **C108 is false of the code across posterior samples.** The generator is started from the event number in every call, so calls with the
same weights — any number of them, with any rates, times and volumes — all record the same posterior sample and the same injection for every
event.  The fraction of calls that record sample `i` is 0 or 1: it is not the share of `i` in the weights unless that share is 0 or 1. -/
theorem C108_calls_fails {E N M : ℕ} (fl : Flags) (w : Fin E → Fin N → ℝ) (v : Fin M → ℝ) (p : PPC E N M) (hfl : fl.ok)
    (hindv : p.indv = none) (hE : 0 < E) (hw : ∀ e i, 0 ≤ w e i) (hv0 : ∀ i, 0 ≤ v i)
    (m1 q : Fin E → Fin N → ℝ) (im1 iq : Fin M → ℝ)
    (hm1 : p.pedata "mass_1" = some fun e j => fin (m1 e j)) (hq : p.pedata "mass_ratio" = some fun e j => fin (q e j))
    (him1 : p.injdata "mass_1" = some fun k => fin (im1 k)) (hiq : p.injdata "mass_ratio" = some fun k => fin (iq k))
    (a b c : ℝ) (ha : p.m1min = fin a) (hb : p.mmax = fin b) (hc : p.m2min = fin c)
    (pd : String → Fin E → Fin N → F) (id : String → Fin M → F)
    (hpd : ∀ name ∈ p.param_names, p.pedata name = some (pd name))
    (hid : ∀ name ∈ p.param_names, p.injdata name = some (id name))
    (hu : ∀ key, 0 ≤ p.unif key ∧ p.unif key < 1)
    (hadm : ∀ e, ∃ j, (a ≤ m1 e j ∧ m1 e j ≤ b ∧ c ≤ m1 e j * q e j) ∧ 0 < w e j)
    (hadmi : ∃ k, (a ≤ im1 k ∧ im1 k ≤ b ∧ c ≤ im1 k * iq k) ∧ 0 < v k)
    {S : ℕ} (hS : 0 < S) (n : Fin S → ℕ) (Tobs unscaled : Fin S → F) (hv : Fin S → Option F) (hhv : fl.reconstruct_rate = true → ∀ s, hv s ≠ none) :
    ∃ (J : Fin S → Fin E → Fin N) (K : Fin S → Fin E → Fin M),
      (∀ s, (hierarchical_likelihood fl (.single fun e i => encode fl.log (w e i)) (fun i => encode fl.log (v i)) (n s) E (Tobs s) (hv s)
          (unscaled s) (some p)).1
        = (hierarchical_likelihood fl (.single fun e i => encode fl.log (w e i)) (fun i => encode fl.log (v i)) (n s) E (Tobs s) (hv s)
          (unscaled s) none).1 ++ (List.finRange E).flatMap fun e => ppcSites p.param_names pd id e (J s e) (K s e)) ∧
      (∀ s s', J s = J s' ∧ K s = K s') ∧
      (∀ e i, share (fun i => cutWeight a b c (m1 e i) (q e i) (w e i)) i ≠ 0 → share (fun i => cutWeight a b c (m1 e i) (q e i) (w e i)) i ≠ 1 →
        ((Finset.univ.filter fun s => J s e = i).card : ℝ) / S ≠ share (fun i => cutWeight a b c (m1 e i) (q e i) (w e i)) i) ∧
      (∀ e i, share (fun i => cutWeight a b c (im1 i) (iq i) (v i)) i ≠ 0 → share (fun i => cutWeight a b c (im1 i) (iq i) (v i)) i ≠ 1 →
        ((Finset.univ.filter fun s => K s e = i).card : ℝ) / S ≠ share (fun i => cutWeight a b c (im1 i) (iq i) (v i)) i) := by
  choose J K hJ hK _ _ hsites using fun s : Fin S => ppc_exact fl w v (n s) (Tobs s) (hv s) (unscaled s) p hfl (fun h => hhv h s) hindv hE hw hv0 m1 q
    im1 iq hm1 hq him1 hiq a b c ha hb hc pd id hpd hid hu hadm hadmi
  have hJ' : ∀ s s', J s = J s' := fun s s' => funext fun e => Fin.ext ((hJ s e).trans (hJ s' e).symm)
  have hK' : ∀ s s', K s = K s' := fun s s' => funext fun e => Fin.ext ((hK s e).trans (hK s' e).symm)
  have key : ∀ {α : Type} (f : Fin S → α) (_ : ∀ s s', f s = f s') (i : α) (x : ℝ), x ≠ 0 → x ≠ 1 →
      ((Finset.univ.filter fun s => f s = i).card : ℝ) / S ≠ x := by
    intro α f hf i x h0 h1
    have hSr : (S : ℝ) ≠ 0 := by exact_mod_cast hS.ne'
    by_cases h : f ⟨0, hS⟩ = i
    · have : Finset.univ.filter (fun s => f s = i) = Finset.univ := by
        ext s; simp [(hf s ⟨0, hS⟩).trans h]
      rw [this, Finset.card_univ, Fintype.card_fin, div_self hSr]
      exact h1.symm
    · have : Finset.univ.filter (fun s => f s = i) = ∅ := by
        ext s
        simp only [Finset.mem_filter, Finset.mem_univ, true_and, Finset.notMem_empty, iff_false]
        exact fun hs => h ((hf ⟨0, hS⟩ s).trans hs)
      rw [this, Finset.card_empty, Nat.cast_zero, zero_div]
      exact h0.symm
  exact ⟨J, K, hsites, fun s s' => ⟨hJ' s s', hK' s s'⟩,
    fun e i h0 h1 => by convert key (fun s => J s e) (fun s s' => congrFun (hJ' s s') e) i _ h0 h1,
    fun e i h0 h1 => by convert key (fun s => K s e) (fun s s' => congrFun (hK' s s') e) i _ h0 h1⟩

/-- a uniform generator exists -/
theorem uniformGenerator_exists : ∃ (Ω : Type) (_ : MeasurableSpace Ω) (P : Measure Ω) (_ : IsProbabilityMeasure P) (G : Key → Ω → ℝ), UniformGenerator P G := by
  have hp : IsProbabilityMeasure ((volume : Measure ℝ).restrict (Ico 0 1)) := ⟨by rw [Measure.restrict_apply_univ, Real.volume_Ico]; norm_num⟩
  let μ : Key → Measure ℝ := fun _ => volume.restrict (Ico 0 1)
  have : ∀ k, IsProbabilityMeasure (μ k) := fun _ => hp
  let g : ℝ → ℝ := fun x => if x ∈ Ico (0 : ℝ) 1 then x else 0
  have hg : Measurable g := Measurable.ite measurableSet_Ico measurable_id measurable_const
  refine ⟨Key → ℝ, inferInstance, Measure.infinitePi μ, inferInstance, fun k ω => g (ω k), fun k => hg.comp (measurable_pi_apply k), ?_, fun k => ?_, fun k ω => ?_⟩
  · exact ProbabilityTheory.iIndepFun_infinitePi (P := μ) (X := fun _ => g) fun _ => hg
  · have h1 : (Measure.infinitePi μ).map (fun ω => g (ω k)) = ((Measure.infinitePi μ).map (Function.eval k)).map g := by
      rw [Measure.map_map hg (measurable_pi_apply k)]; rfl
    rw [h1, Measure.infinitePi_map_eval]
    have : g =ᵐ[volume.restrict (Ico 0 1)] fun x => x := by
      filter_upwards [ae_restrict_mem measurableSet_Ico] with x hx
      simp only [g, if_pos hx]
    rw [Measure.map_congr this]
    exact Measure.map_id
  · simp only [g]
    split_ifs with h
    · exact h
    · norm_num

/-- the hypotheses are met: one event with three samples of weights 1, 2, 3, the first below the mass cut; the second is recorded with
probability 2/5, together with the first of two equal injections with probability 1/5 -/
example : ∃ (Ω : Type) (_ : MeasurableSpace Ω) (P : Measure Ω) (J : Ω → Fin 1 → Fin 3) (K : Ω → Fin 1 → Fin 2),
    P {ω | ∀ e, J ω e = 1 ∧ K ω e = 0} = ENNReal.ofReal (1 / 5) := by
  obtain ⟨Ω, mΩ, P, -, G, hG⟩ := uniformGenerator_exists
  obtain ⟨J, K, -, h⟩ := C108_law_partial hG (E := 1) (N := 3) (M := 2) { log := true, reconstruct_rate := false }
    (fun _ i => i.1 + 1) (fun _ => 1) 10 (fin 1) none (fin 1)
    { param_names := ["mass_1"], unif := fun _ => 0,
      pedata := fun s => if s = "mass_1" then some fun _ j => fin (if j = 0 then 2 else 20)
        else if s = "mass_ratio" then some fun _ _ => fin (1 / 2) else none
      injdata := fun s => if s = "mass_1" then some fun _ => fin 20
        else if s = "mass_ratio" then some fun _ => fin (1 / 2) else none }
    (by simp [Flags.ok]) (by simp) rfl (by norm_num) (by intros; positivity) (by intros; norm_num)
    (fun _ j => if j = 0 then 2 else 20) (fun _ _ => 1 / 2) (fun _ => 20) (fun _ => 1 / 2)
    (by simp) (by simp) (by simp) (by simp) 5 100 3 rfl rfl rfl
    (fun _ _ j => fin (if j = 0 then 2 else 20)) (fun _ _ => fin 20) (by simp) (by simp)
    (fun _ => ⟨1, by norm_num⟩) ⟨1, by norm_num⟩
  refine ⟨Ω, mΩ, P, J, K, (h (fun _ => 1) fun _ => 0).trans ?_⟩
  have h2 : (2 : Fin 3) ≠ 0 := by decide
  rw [Fin.prod_univ_one, ← ENNReal.ofReal_mul (by norm_num [share, cutWeight, Fin.sum_univ_three, h2])]
  congr 1
  norm_num [h2, share, cutWeight, Fin.sum_univ_three, Fin.sum_univ_two]

end GW
end
