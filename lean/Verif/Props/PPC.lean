import Verif.Props.Likelihood
import Mathlib.Order.Interval.Finset.Fin

/-! # C49: posterior predictive draws -/

open Finset
noncomputable section
open Classical
namespace GW
open F

theorem card_initial {n : ℕ} (S : Finset (Fin n)) (hS : ∀ i ∈ S, ∀ j, j ≤ i → j ∈ S) (i : Fin n) :
    i ∈ S ↔ i.1 < S.card := by
  constructor
  · intro hi
    have : Finset.Iic i ⊆ S := fun j hj => hS i hi j (Finset.mem_Iic.1 hj)
    have := Finset.card_le_card this
    rw [Fin.card_Iic] at this
    omega
  · intro h
    by_contra hi
    have hsub : S ⊆ Finset.Iio i := by
      intro j hj
      rw [Finset.mem_Iio]
      by_contra hji
      exact hi (hS j hj i (not_lt.1 hji))
    have := Finset.card_le_card hsub
    rw [Fin.card_Iio] at this
    omega

/-- an index drawn with `jax.random.choice` has positive probability -/
theorem jaxChoice_pos {n : ℕ} (u : ℝ) (hu0 : 0 ≤ u) (hu1 : u < 1) (p : Fin n → ℝ) (hp : ∀ i, 0 ≤ p i) (hs : 0 < ∑ i, p i) :
    ∃ h : jaxChoice u (fun i => fin (p i)) < n, 0 < p ⟨jaxChoice u (fun i => fin (p i)), h⟩ := by
  set C : Fin n → ℝ := fun i => ∑ j ∈ univ.filter (fun j => j ≤ i), p j with hC
  set r : ℝ := (∑ i, p i) * (1 - u) with hr
  have hr0 : 0 < r := mul_pos hs (by linarith)
  have hrS : r ≤ ∑ i, p i := by rw [hr]; nlinarith
  set S : Finset (Fin n) := univ.filter (fun i => C i < r) with hSdef
  have hk : jaxChoice u (fun i => fin (p i)) = S.card := by
    unfold jaxChoice
    simp only [sum_fin, one_def, sub_fin, mul_fin, lt_fin]
    rfl
  have hmono : ∀ i j : Fin n, j ≤ i → C j ≤ C i := by
    intro i j hji
    refine Finset.sum_le_sum_of_subset_of_nonneg ?_ (fun i _ _ => hp i)
    intro x hx
    simp only [Finset.mem_filter, Finset.mem_univ, true_and] at hx ⊢
    exact hx.trans hji
  have hdc : ∀ i ∈ S, ∀ j, j ≤ i → j ∈ S := by
    intro i hi j hji
    simp only [hSdef, Finset.mem_filter, Finset.mem_univ, true_and] at hi ⊢
    exact (hmono i j hji).trans_lt hi
  have hn : 0 < n := by
    rcases Nat.eq_zero_or_pos n with h | h
    · subst h; simp at hs
    · exact h
  have hlast : C ⟨n - 1, by omega⟩ = ∑ i, p i := by
    refine Finset.sum_congr ?_ (fun _ _ => rfl)
    ext x
    simp only [Finset.mem_filter, Finset.mem_univ, true_and, iff_true]
    exact Fin.le_def.2 (by have := x.2; simp; omega)
  have hcard : S.card < n := by
    have : ¬ (⟨n - 1, by omega⟩ : Fin n) ∈ S := by
      simp only [hSdef, Finset.mem_filter, Finset.mem_univ, true_and, hlast, not_lt]
      exact hrS
    rw [card_initial S hdc] at this
    simp at this; omega
  rw [hk]
  refine ⟨hcard, ?_⟩
  set k : Fin n := ⟨S.card, hcard⟩ with hkdef
  have hCk : r ≤ C k := by
    have : ¬ k ∈ S := by rw [card_initial S hdc]; simp [hkdef]
    simpa [hSdef] using this
  rcases Nat.eq_zero_or_pos S.card with h0 | h0
  · have : C k = p k := by
      have : univ.filter (fun j => j ≤ k) = {k} := by
        ext x
        simp only [Finset.mem_filter, Finset.mem_univ, true_and, Finset.mem_singleton]
        constructor
        · intro hx; exact Fin.ext (by have := Fin.le_def.1 hx; simp only [hkdef] at this ⊢; omega)
        · intro hx; rw [hx]
      simp only [hC, this, Finset.sum_singleton]
    linarith
  · let k' : Fin n := ⟨S.card - 1, by omega⟩
    have hk' : C k' < r := by
      have : k' ∈ S := by rw [card_initial S hdc]; change S.card - 1 < S.card; omega
      simpa [hSdef] using this
    have hstep : C k = C k' + p k := by
      have : univ.filter (fun j => j ≤ k) = insert k (univ.filter (fun j => j ≤ k')) := by
        ext x
        simp only [Finset.mem_filter, Finset.mem_univ, true_and, Finset.mem_insert]
        constructor
        · intro hx
          by_cases hxk : x = k
          · exact Or.inl hxk
          · right
            have h1 := Fin.le_def.1 hx
            have h2 : x.1 ≠ k.1 := fun h => hxk (Fin.ext h)
            refine Fin.le_def.2 ?_
            simp [hkdef, k'] at h1 h2 ⊢; omega
        · rintro (hx | hx)
          · rw [hx]
          · have h1 := Fin.le_def.1 hx
            refine Fin.le_def.2 ?_
            simp [hkdef, k'] at h1 ⊢; omega
      simp only [hC, this]
      rw [Finset.sum_insert, add_comm]
      simp only [Finset.mem_filter, Finset.mem_univ, true_and, Fin.le_def, hkdef, k']; omega
    linarith

/-- a posterior predictive draw picks an index of positive weight -/
theorem ppcDraw_pos {n : ℕ} (u : ℝ) (hu0 : 0 ≤ u) (hu1 : u < 1) (w : Fin n → ℝ) (hw : ∀ i, 0 ≤ w i) (hp : ∃ i, 0 < w i) :
    ∃ h : ppcDraw u (fun i => fin (w i)) < n, 0 < w ⟨ppcDraw u (fun i => fin (w i)), h⟩ := by
  have hS := (sum_pos_of hw hp).1
  have he : ppcDraw u (fun i => fin (w i)) = jaxChoice u (fun i => fin (w i / ∑ k, w k)) := by
    unfold ppcDraw
    refine congrArg _ (funext fun j => ?_)
    rw [sum_fin, div_fin hS.ne']
  rw [he]
  obtain ⟨h, hpos⟩ := jaxChoice_pos u hu0 hu1 (fun i => w i / ∑ k, w k) (fun i => div_nonneg (hw i) hS.le)
    (by simp only [div_eq_mul_inv]; rw [← Finset.sum_mul]; exact mul_pos hS (inv_pos.2 hS))
  exact ⟨h, by have := mul_pos hpos hS; rwa [div_mul_cancel₀ _ hS.ne'] at this⟩

theorem jaxGet_fin {α : Type} {n : ℕ} (h : 0 < n) (a : Fin n → α) (i : Fin n) : jaxGet h a i.1 = a i := by
  unfold jaxGet
  exact congrArg a (Fin.ext (by have := i.2; simp; omega))

/-- the sites one event adds, given the drawn indices -/
def ppcSites {E N M : ℕ} (names : List String) (pd : String → Fin E → Fin N → F) (id : String → Fin M → F) (e : Fin E)
    (j : Fin N) (k : Fin M) : List Site :=
  names.flatMap fun name => [.det s!"{name}_obs_event_{e.1}" [pd name e j], .det s!"{name}_pred_event_{e.1}" [id name k]]

/-- the sites of the subpopulation fractions of one event, given the drawn sample: the weight `u` of each subpopulation over the total weight -/
def catSites {E N : ℕ} (indv : Option (List (Fin E → Fin N → F))) (tot : Fin E → Fin N → F) (e : Fin E) (j : Fin N) : List Site :=
  match indv with
  | none => []
  | some l => l.mapIdx fun i u => .det s!"cat_frac_subpop_{i + 1}_event_{e.1}" [u e j / tot e j]

theorem ppcEvent_eq {E N M : ℕ} (p : PPC E N M) (hE : 0 < E) (hN : 0 < N) (hM : 0 < M) (pw : Fin E → Fin N → F)
    (iw : Fin M → F) (pd : String → Fin E → Fin N → F) (id : String → Fin M → F)
    (hpd : ∀ name ∈ p.param_names, p.pedata name = some (pd name))
    (hid : ∀ name ∈ p.param_names, p.injdata name = some (id name)) (e : Fin E) (j : Fin N) (k : Fin M)
    (hj : ppcDraw (p.unif (Key.seed e).split1) (pw e) = j) (hk : ppcDraw (p.unif (Key.seed e).split2) iw = k) :
    ppcEvent p hE hN hM pw iw e = (catSites p.indv pw e j ++ ppcSites p.param_names pd id e j k, .ok ()) := by
  unfold ppcEvent ppcSites
  have hc : ppcCats p hE hN pw e.1 j.1 = catSites p.indv pw e j := by
    unfold ppcCats catSites
    cases p.indv with
    | none => rfl
    | some l => simp only [jaxGet_fin]
  simp only [jaxGet_fin, hj, hk, hc]
  have hgen : ∀ (l : List String), (∀ name ∈ l, p.pedata name = some (pd name)) → (∀ name ∈ l, p.injdata name = some (id name)) →
      ∀ acc : List Site, l.foldl (ppcNameStep p hE hN hM e.1 j.1 k.1) (acc, .ok ())
        = (acc ++ l.flatMap fun name => [.det s!"{name}_obs_event_{e.1}" [pd name e j],
            .det s!"{name}_pred_event_{e.1}" [id name k]], .ok ()) := by
    intro l
    induction l with
    | nil => intro _ _ acc; simp
    | cons x l ih =>
      intro h1 h2 acc
      rw [List.foldl_cons]
      have e1 : getKey p.pedata x = .ok (pd x) := by simp [getKey, h1 x (by simp)]
      have e2 : getKey p.injdata x = .ok (id x) := by simp [getKey, h2 x (by simp)]
      have e3 : ppcNameStep p hE hN hM e.1 j.1 k.1 (acc, .ok ()) x = (acc ++ [.det s!"{x}_obs_event_{e.1}" [pd x e j]] ++
          [.det s!"{x}_pred_event_{e.1}" [id x k]], .ok ()) := by
        unfold ppcNameStep
        simp only [e1, e2, jaxGet_fin]
      rw [e3, ih (fun n hn => h1 n (by simp [hn])) (fun n hn => h2 n (by simp [hn]))]
      simp [List.append_assoc]
  exact hgen p.param_names hpd hid _

/-- the weight of a sample with primary mass `m1` and mass ratio `q` once the mass cuts are applied -/
def cutWeight (a b c m1 q w : ℝ) : ℝ := if a ≤ m1 ∧ m1 ≤ b ∧ c ≤ m1 * q then w else 0

theorem ppc_exact_cats {E N M : ℕ} (fl : Flags) (w : Fin E → Fin N → ℝ) (v : Fin M → ℝ) (n : ℕ)
    (Tobs : F) (hv : Option F) (unscaled : F) (p : PPC E N M) (hfl : fl.ok)
    (hhv : fl.reconstruct_rate = true → hv ≠ none) (hE : 0 < E)
    (hw : ∀ e i, 0 ≤ w e i) (hv0 : ∀ i, 0 ≤ v i)
    (m1 q : Fin E → Fin N → ℝ) (im1 iq : Fin M → ℝ)
    (hm1 : p.pedata "mass_1" = some fun e j => fin (m1 e j)) (hq : p.pedata "mass_ratio" = some fun e j => fin (q e j))
    (him1 : p.injdata "mass_1" = some fun k => fin (im1 k)) (hiq : p.injdata "mass_ratio" = some fun k => fin (iq k))
    (a b c : ℝ) (ha : p.m1min = fin a) (hb : p.mmax = fin b) (hc : p.m2min = fin c)
    (pd : String → Fin E → Fin N → F) (id : String → Fin M → F)
    (hpd : ∀ name ∈ p.param_names, p.pedata name = some (pd name))
    (hid : ∀ name ∈ p.param_names, p.injdata name = some (id name))
    (hu : ∀ key, 0 ≤ p.unif key ∧ p.unif key < 1)
    (hadm : ∀ e, ∃ j, (a ≤ m1 e j ∧ m1 e j ≤ b ∧ c ≤ m1 e j * q e j) ∧ 0 < w e j)
    (hadmi : ∃ k, (a ≤ im1 k ∧ im1 k ≤ b ∧ c ≤ im1 k * iq k) ∧ 0 < v k) :
    ∃ (j : Fin E → Fin N) (k : Fin E → Fin M),
      (∀ e, (j e).1 = ppcDraw (p.unif (Key.seed e).split1) (fun i => fin (cutWeight a b c (m1 e i) (q e i) (w e i)))) ∧
      (∀ e, (k e).1 = ppcDraw (p.unif (Key.seed e).split2) (fun i => fin (cutWeight a b c (im1 i) (iq i) (v i)))) ∧
      (∀ e, (a ≤ m1 e (j e) ∧ m1 e (j e) ≤ b ∧ c ≤ m1 e (j e) * q e (j e)) ∧ 0 < w e (j e)) ∧
      (∀ e, (a ≤ im1 (k e) ∧ im1 (k e) ≤ b ∧ c ≤ im1 (k e) * iq (k e)) ∧ 0 < v (k e)) ∧
      (hierarchical_likelihood fl (.single fun e i => encode fl.log (w e i)) (fun i => encode fl.log (v i)) n E Tobs hv
          unscaled (some p)).1
        = (hierarchical_likelihood fl (.single fun e i => encode fl.log (w e i)) (fun i => encode fl.log (v i)) n E Tobs hv
          unscaled none).1 ++ (List.finRange E).flatMap fun e =>
            catSites p.indv (fun e i => fin (w e i)) e (j e) ++ ppcSites p.param_names pd id e (j e) (k e) := by
  -- the masked weights
  let x : Fin E → Fin N → ℝ := fun e j => if a ≤ m1 e j ∧ m1 e j ≤ b ∧ c ≤ m1 e j * q e j then w e j else 0
  let y : Fin M → ℝ := fun k => if a ≤ im1 k ∧ im1 k ≤ b ∧ c ≤ im1 k * iq k then v k else 0
  have hdec : ∀ z : ℝ, 0 ≤ z → (if fl.log = true then exp (encode fl.log z) else encode fl.log z) = fin z := by
    intro z hz
    cases fl.log with
    | false => simp [encode]
    | true => simp [encode, exp_log_nonneg hz]
  have hpw : ppcPeWeights fl.log (fun e i => encode fl.log (w e i)) (fun e j => fin (m1 e j)) (fun e j => fin (q e j))
      p.m1min p.mmax p.m2min = fun e j => fin (x e j) := by
    funext e j
    unfold ppcPeWeights massCut
    simp only [ha, hb, hc, mul_fin, lt_fin, gt_fin, x]
    rw [hdec _ (hw e j)]
    by_cases h : a ≤ m1 e j ∧ m1 e j ≤ b ∧ c ≤ m1 e j * q e j
    · rw [if_neg (by push Not; exact h), if_pos h]
    · rw [if_pos (by by_contra h'; push Not at h'; exact h h'), if_neg h]; rfl
  have hiw : ppcInjWeights fl.log (fun i => encode fl.log (v i)) (fun k => fin (im1 k)) (fun k => fin (iq k))
      p.m1min p.mmax p.m2min = fun k => fin (y k) := by
    funext k
    unfold ppcInjWeights massCut
    simp only [ha, hb, hc, mul_fin, lt_fin, gt_fin, y]
    rw [hdec _ (hv0 k)]
    by_cases h : a ≤ im1 k ∧ im1 k ≤ b ∧ c ≤ im1 k * iq k
    · rw [if_neg (by push Not; exact h), if_pos h]
    · rw [if_pos (by by_contra h'; push Not at h'; exact h h'), if_neg h]; rfl
  have hx0 : ∀ e j, 0 ≤ x e j := fun e j => by simp only [x]; split_ifs; exacts [hw e j, le_rfl]
  have hy0 : ∀ k, 0 ≤ y k := fun k => by simp only [y]; split_ifs; exacts [hv0 k, le_rfl]
  have hxp : ∀ e, ∃ j, 0 < x e j := fun e => (hadm e).imp fun j hj => by simp only [x]; rw [if_pos hj.1]; exact hj.2
  have hyp : ∃ k, 0 < y k := hadmi.imp fun k hk => by simp only [y]; rw [if_pos hk.1]; exact hk.2
  have hxe : ∀ e j, 0 < x e j → (a ≤ m1 e j ∧ m1 e j ≤ b ∧ c ≤ m1 e j * q e j) ∧ 0 < w e j := by
    intro e j h
    simp only [x] at h
    by_cases hcond : a ≤ m1 e j ∧ m1 e j ≤ b ∧ c ≤ m1 e j * q e j
    · rw [if_pos hcond] at h; exact ⟨hcond, h⟩
    · rw [if_neg hcond] at h; exact absurd h (lt_irrefl _)
  have hye : ∀ k, 0 < y k → (a ≤ im1 k ∧ im1 k ≤ b ∧ c ≤ im1 k * iq k) ∧ 0 < v k := by
    intro k h
    simp only [y] at h
    by_cases hcond : a ≤ im1 k ∧ im1 k ≤ b ∧ c ≤ im1 k * iq k
    · rw [if_pos hcond] at h; exact ⟨hcond, h⟩
    · rw [if_neg hcond] at h; exact absurd h (lt_irrefl _)
  choose hj hjp using fun e : Fin E => ppcDraw_pos (p.unif (Key.seed e).split1) (hu _).1 (hu _).2 (x e) (hx0 e) (hxp e)
  choose hk hkp using fun e : Fin E => ppcDraw_pos (p.unif (Key.seed e).split2) (hu _).1 (hu _).2 y hy0 hyp
  refine ⟨fun e => ⟨_, hj e⟩, fun e => ⟨_, hk e⟩, fun _ => rfl, fun _ => rfl, fun e => hxe e _ (hjp e), fun e => hye _ (hkp e), ?_⟩
  have hppc : ppcRun fl.log (fun e i => encode fl.log (w e i)) (fun i => encode fl.log (v i)) E p
      = ((List.finRange E).flatMap fun e => catSites p.indv (fun e j => fin (x e j)) e ⟨_, hj e⟩ ++ ppcSites p.param_names pd id e ⟨_, hj e⟩ ⟨_, hk e⟩, .ok ()) := by
    unfold ppcRun
    have g1 : getKey p.pedata "mass_1" = .ok fun e j => fin (m1 e j) := by simp only [getKey, hm1]
    have g2 : getKey p.pedata "mass_ratio" = .ok fun e j => fin (q e j) := by simp only [getKey, hq]
    have g3 : getKey p.injdata "mass_1" = .ok fun k => fin (im1 k) := by simp only [getKey, him1]
    have g4 : getKey p.injdata "mass_ratio" = .ok fun k => fin (iq k) := by simp only [getKey, hiq]
    simp only [g1, g2, g3, g4, hpw, hiw]
    have hM : 0 < M := by obtain ⟨k, _⟩ := hyp; exact k.pos
    have hN : 0 < N := by obtain ⟨j, _⟩ := hxp ⟨0, hE⟩; exact j.pos
    rw [dif_pos ⟨hE, hN, hM⟩]
    have hfold : ∀ (l : List (Fin E)) (acc : List Site), (l.map Fin.val).foldl
          (ppcEventStep p hE hN hM (fun e j => fin (x e j)) (fun k => fin (y k))) (acc, .ok ())
        = (acc ++ l.flatMap fun e => catSites p.indv (fun e j => fin (x e j)) e ⟨_, hj e⟩ ++ ppcSites p.param_names pd id e ⟨_, hj e⟩ ⟨_, hk e⟩, .ok ()) := by
      intro l
      induction l with
      | nil => intro acc; simp
      | cons e l ih =>
        intro acc
        rw [List.map_cons, List.foldl_cons]
        have e1 : ppcEventStep p hE hN hM (fun e j => fin (x e j)) (fun k => fin (y k)) (acc, .ok ()) e.1
            = (acc ++ (catSites p.indv (fun e j => fin (x e j)) e ⟨_, hj e⟩ ++ ppcSites p.param_names pd id e ⟨_, hj e⟩ ⟨_, hk e⟩), .ok ()) := by
          unfold ppcEventStep
          simp only [ppcEvent_eq p hE hN hM (fun e j => fin (x e j)) (fun k => fin (y k)) pd id hpd hid e
            ⟨_, hj e⟩ ⟨_, hk e⟩ rfl rfl]
        rw [e1, ih]
        simp [List.append_assoc]
    have := hfold (List.finRange E) []
    rw [List.map_coe_finRange_eq_range] at this
    simpa using this
  unfold hierarchical_likelihood
  rw [if_neg hfl, if_neg hfl]
  have hr : ∃ rp, ratePart fl hv Tobs unscaled (detection_efficiency (fun i => encode fl.log (v i)) n fl.log).1 = .ok rp := by
    unfold ratePart
    cases hb : fl.reconstruct_rate with
    | false => exact ⟨_, rfl⟩
    | true =>
      cases hv with
      | none => exact absurd rfl (hhv hb)
      | some v => exact ⟨_, rfl⟩
  obtain ⟨rp, hrp⟩ := hr
  simp only [hrp]
  have hxw : ∀ e, catSites p.indv (fun e j => fin (x e j)) e ⟨_, hj e⟩ = catSites p.indv (fun e i => fin (w e i)) e ⟨_, hj e⟩ := by
    intro e
    have h : x e ⟨_, hj e⟩ = w e ⟨_, hj e⟩ := if_pos (hxe e _ (hjp e)).1
    unfold catSites
    simp only [h]
  simp only [ppcOf, hppc, hxw]

theorem ppc_exact {E N M : ℕ} (fl : Flags) (w : Fin E → Fin N → ℝ) (v : Fin M → ℝ) (n : ℕ)
    (Tobs : F) (hv : Option F) (unscaled : F) (p : PPC E N M) (hfl : fl.ok)
    (hhv : fl.reconstruct_rate = true → hv ≠ none) (hindv : p.indv = none) (hE : 0 < E)
    (hw : ∀ e i, 0 ≤ w e i) (hv0 : ∀ i, 0 ≤ v i)
    (m1 q : Fin E → Fin N → ℝ) (im1 iq : Fin M → ℝ)
    (hm1 : p.pedata "mass_1" = some fun e j => fin (m1 e j)) (hq : p.pedata "mass_ratio" = some fun e j => fin (q e j))
    (him1 : p.injdata "mass_1" = some fun k => fin (im1 k)) (hiq : p.injdata "mass_ratio" = some fun k => fin (iq k))
    (a b c : ℝ) (ha : p.m1min = fin a) (hb : p.mmax = fin b) (hc : p.m2min = fin c)
    (pd : String → Fin E → Fin N → F) (id : String → Fin M → F)
    (hpd : ∀ name ∈ p.param_names, p.pedata name = some (pd name))
    (hid : ∀ name ∈ p.param_names, p.injdata name = some (id name))
    (hu : ∀ key, 0 ≤ p.unif key ∧ p.unif key < 1)
    (hadm : ∀ e, ∃ j, (a ≤ m1 e j ∧ m1 e j ≤ b ∧ c ≤ m1 e j * q e j) ∧ 0 < w e j)
    (hadmi : ∃ k, (a ≤ im1 k ∧ im1 k ≤ b ∧ c ≤ im1 k * iq k) ∧ 0 < v k) :
    ∃ (j : Fin E → Fin N) (k : Fin E → Fin M),
      (∀ e, (j e).1 = ppcDraw (p.unif (Key.seed e).split1) (fun i => fin (cutWeight a b c (m1 e i) (q e i) (w e i)))) ∧
      (∀ e, (k e).1 = ppcDraw (p.unif (Key.seed e).split2) (fun i => fin (cutWeight a b c (im1 i) (iq i) (v i)))) ∧
      (∀ e, (a ≤ m1 e (j e) ∧ m1 e (j e) ≤ b ∧ c ≤ m1 e (j e) * q e (j e)) ∧ 0 < w e (j e)) ∧
      (∀ e, (a ≤ im1 (k e) ∧ im1 (k e) ≤ b ∧ c ≤ im1 (k e) * iq (k e)) ∧ 0 < v (k e)) ∧
      (hierarchical_likelihood fl (.single fun e i => encode fl.log (w e i)) (fun i => encode fl.log (v i)) n E Tobs hv
          unscaled (some p)).1
        = (hierarchical_likelihood fl (.single fun e i => encode fl.log (w e i)) (fun i => encode fl.log (v i)) n E Tobs hv
          unscaled none).1 ++ (List.finRange E).flatMap fun e => ppcSites p.param_names pd id e (j e) (k e) := by
  obtain ⟨j, k, h1, h2, h3, h4, h5⟩ := ppc_exact_cats fl w v n Tobs hv unscaled p hfl hhv hE hw hv0 m1 q im1 iq hm1 hq him1 hiq a b c ha hb hc
    pd id hpd hid hu hadm hadmi
  refine ⟨j, k, h1, h2, h3, h4, ?_⟩
  simpa [hindv, catSites] using h5

/-- C49: with real masses and non-negative weights, when every event has an admissible PE sample of positive weight and
there is an admissible injection of positive weight, the posterior predictive check adds for every event, after the
likelihood statements, the parameters of *one* PE sample and of *one* injection, each of positive weight and with
`m1min ≤ mass_1 ≤ mmax` and `mass_1 * mass_ratio ≥ m2min` — for every state of the random generator. -/
theorem C49_draws_respect_cuts {E N M : ℕ} (fl : Flags) (w : Fin E → Fin N → ℝ) (v : Fin M → ℝ) (n : ℕ)
    (Tobs : F) (hv : Option F) (unscaled : F) (p : PPC E N M) (hfl : fl.ok)
    (hhv : fl.reconstruct_rate = true → hv ≠ none) (hindv : p.indv = none) (hE : 0 < E)
    (hw : ∀ e i, 0 ≤ w e i) (hv0 : ∀ i, 0 ≤ v i)
    (m1 q : Fin E → Fin N → ℝ) (im1 iq : Fin M → ℝ)
    (hm1 : p.pedata "mass_1" = some fun e j => fin (m1 e j)) (hq : p.pedata "mass_ratio" = some fun e j => fin (q e j))
    (him1 : p.injdata "mass_1" = some fun k => fin (im1 k)) (hiq : p.injdata "mass_ratio" = some fun k => fin (iq k))
    (a b c : ℝ) (ha : p.m1min = fin a) (hb : p.mmax = fin b) (hc : p.m2min = fin c)
    (pd : String → Fin E → Fin N → F) (id : String → Fin M → F)
    (hpd : ∀ name ∈ p.param_names, p.pedata name = some (pd name))
    (hid : ∀ name ∈ p.param_names, p.injdata name = some (id name))
    (hu : ∀ key, 0 ≤ p.unif key ∧ p.unif key < 1)
    (hadm : ∀ e, ∃ j, (a ≤ m1 e j ∧ m1 e j ≤ b ∧ c ≤ m1 e j * q e j) ∧ 0 < w e j)
    (hadmi : ∃ k, (a ≤ im1 k ∧ im1 k ≤ b ∧ c ≤ im1 k * iq k) ∧ 0 < v k) :
    ∃ (j : Fin E → Fin N) (k : Fin E → Fin M),
      (∀ e, (a ≤ m1 e (j e) ∧ m1 e (j e) ≤ b ∧ c ≤ m1 e (j e) * q e (j e)) ∧ 0 < w e (j e)) ∧
      (∀ e, (a ≤ im1 (k e) ∧ im1 (k e) ≤ b ∧ c ≤ im1 (k e) * iq (k e)) ∧ 0 < v (k e)) ∧
      (hierarchical_likelihood fl (.single fun e i => encode fl.log (w e i)) (fun i => encode fl.log (v i)) n E Tobs hv
          unscaled (some p)).1
        = (hierarchical_likelihood fl (.single fun e i => encode fl.log (w e i)) (fun i => encode fl.log (v i)) n E Tobs hv
          unscaled none).1 ++ (List.finRange E).flatMap fun e => ppcSites p.param_names pd id e (j e) (k e) := by
  obtain ⟨j, k, -, -, h1, h2, h3⟩ := ppc_exact fl w v n Tobs hv unscaled p hfl hhv hindv hE hw hv0 m1 q im1 iq hm1 hq him1 hiq a b c ha hb hc
    pd id hpd hid hu hadm hadmi
  exact ⟨j, k, h1, h2, h3⟩

/-- the hypotheses of C49 are met: one event with two samples (one below the mass cut), two injections, log weights -/
example (Tobs unscaled : F) : ∃ sites, (hierarchical_likelihood (E := 1) (N := 2) (M := 2) { log := true, reconstruct_rate := false }
    (.single fun _ _ => encode true 1) (fun _ => encode true 1) 10 1 Tobs none unscaled
    (some { param_names := ["mass_1"], unif := fun _ => 1 / 2,
            pedata := fun s => if s = "mass_1" then some fun _ j => fin (if j = 0 then 2 else 20)
              else if s = "mass_ratio" then some fun _ _ => fin (1 / 2) else none
            injdata := fun s => if s = "mass_1" then some fun j => fin (if j = 0 then 2 else 20)
              else if s = "mass_ratio" then some fun _ => fin (1 / 2) else none })).1 = sites ++
      [.det "mass_1_obs_event_0" [fin 20], .det "mass_1_pred_event_0" [fin 20]] := by
  obtain ⟨j, k, hj, hk, h⟩ := C49_draws_respect_cuts (E := 1) (N := 2) (M := 2) { log := true, reconstruct_rate := false }
    (fun _ _ => 1) (fun _ => 1) 10 Tobs none unscaled
    { param_names := ["mass_1"], unif := fun _ => 1 / 2,
      pedata := fun s => if s = "mass_1" then some fun _ j => fin (if j = 0 then 2 else 20)
        else if s = "mass_ratio" then some fun _ _ => fin (1 / 2) else none
      injdata := fun s => if s = "mass_1" then some fun j => fin (if j = 0 then 2 else 20)
        else if s = "mass_ratio" then some fun _ => fin (1 / 2) else none }
    (by simp [Flags.ok]) (by simp) rfl (by norm_num) (by intros; norm_num) (by intros; norm_num)
    (fun _ j => if j = 0 then 2 else 20) (fun _ _ => 1 / 2) (fun j => if j = 0 then 2 else 20) (fun _ => 1 / 2)
    (by simp) (by simp) (by simp) (by simp) 5 100 3 rfl rfl rfl
    (fun _ _ j => fin (if j = 0 then 2 else 20)) (fun _ j => fin (if j = 0 then 2 else 20)) (by simp) (by simp)
    (by intro; norm_num) (fun _ => ⟨1, by norm_num⟩) ⟨1, by norm_num⟩
  refine ⟨_, h.trans (congrArg _ ?_)⟩
  have e1 : j 0 ≠ 0 := fun h0 => by have := (hj 0).1.1; simp only [h0, if_true] at this; norm_num at this
  have e2 : k 0 ≠ 0 := fun h0 => by have := (hk 0).1.1; simp only [h0, if_true] at this; norm_num at this
  simp [ppcSites, e1, e2, List.finRange_succ]
  exact ⟨by decide, by decide⟩

/-! ### the subpopulation fractions -/

/-- **C126**.  With `marginal_qs` and plain weights, the total weight of a sample being the sum of its non-negative weights in the subpopulations, the
check records for every event, before the drawn parameters, one value per subpopulation, in order, under `cat_frac_subpop_<i>_event_<event>`
counting from 1: the share of the drawn sample's weight that is the subpopulation's.  The shares lie in `[0, 1]` and sum to 1.
Partial; missing: log weights, `C126_log_fails`. -/
theorem C126_fractions_partial {E N M : ℕ} (fl : Flags) (hlog : fl.log = false) (us : List (Fin E → Fin N → ℝ)) (w : Fin E → Fin N → ℝ) (v : Fin M → ℝ) (n : ℕ)
    (Tobs : F) (hv : Option F) (unscaled : F) (p : PPC E N M) (hfl : fl.ok)
    (hhv : fl.reconstruct_rate = true → hv ≠ none) (hindv : p.indv = some (us.map fun u e i => fin (u e i))) (hE : 0 < E)
    (hus : ∀ u ∈ us, ∀ e i, 0 ≤ u e i) (hsum : ∀ e i, w e i = (us.map fun u => u e i).sum) (hv0 : ∀ i, 0 ≤ v i)
    (m1 q : Fin E → Fin N → ℝ) (im1 iq : Fin M → ℝ)
    (hm1 : p.pedata "mass_1" = some fun e j => fin (m1 e j)) (hq : p.pedata "mass_ratio" = some fun e j => fin (q e j))
    (him1 : p.injdata "mass_1" = some fun k => fin (im1 k)) (hiq : p.injdata "mass_ratio" = some fun k => fin (iq k))
    (a b c : ℝ) (ha : p.m1min = fin a) (hb : p.mmax = fin b) (hc : p.m2min = fin c)
    (pd : String → Fin E → Fin N → F) (id : String → Fin M → F)
    (hpd : ∀ name ∈ p.param_names, p.pedata name = some (pd name))
    (hid : ∀ name ∈ p.param_names, p.injdata name = some (id name))
    (hu : ∀ key, 0 ≤ p.unif key ∧ p.unif key < 1)
    (hadm : ∀ e, ∃ j, (a ≤ m1 e j ∧ m1 e j ≤ b ∧ c ≤ m1 e j * q e j) ∧ 0 < w e j)
    (hadmi : ∃ k, (a ≤ im1 k ∧ im1 k ≤ b ∧ c ≤ im1 k * iq k) ∧ 0 < v k) :
    ∃ (j : Fin E → Fin N) (k : Fin E → Fin M) (share : Fin E → List ℝ),
      (∀ e, share e = us.map fun u => u e (j e) / w e (j e)) ∧
      (∀ e, ∀ f ∈ share e, 0 ≤ f ∧ f ≤ 1) ∧ (∀ e, (share e).sum = 1) ∧
      (hierarchical_likelihood fl (.single fun e i => fin (w e i)) (fun i => fin (v i)) n E Tobs hv unscaled (some p)).1
        = (hierarchical_likelihood fl (.single fun e i => fin (w e i)) (fun i => fin (v i)) n E Tobs hv unscaled none).1 ++
          (List.finRange E).flatMap fun e => ((share e).mapIdx fun i f => Site.det s!"cat_frac_subpop_{i + 1}_event_{e.1}" [fin f]) ++
            ppcSites p.param_names pd id e (j e) (k e) := by
  have hw : ∀ e i, 0 ≤ w e i := fun e i => by
    rw [hsum]
    refine List.sum_nonneg fun x hx => ?_
    obtain ⟨u, hu, rfl⟩ := List.mem_map.1 hx
    exact hus u hu e i
  obtain ⟨j, k, -, -, h3, -, h5⟩ := ppc_exact_cats fl w v n Tobs hv unscaled p hfl hhv hE hw hv0 m1 q im1 iq hm1 hq him1 hiq a b c ha hb hc
    pd id hpd hid hu hadm hadmi
  have hpos : ∀ e, 0 < w e (j e) := fun e => (h3 e).2
  refine ⟨j, k, fun e => us.map fun u => u e (j e) / w e (j e), fun _ => rfl, ?_, ?_, ?_⟩
  · intro e f hf
    obtain ⟨u, hu, rfl⟩ := List.mem_map.1 hf
    refine ⟨div_nonneg (hus u hu _ _) (hpos e).le, (div_le_one (hpos e)).2 ?_⟩
    rw [hsum]
    exact List.single_le_sum (fun x hx => by obtain ⟨u', hu', rfl⟩ := List.mem_map.1 hx; exact hus u' hu' _ _) _ (List.mem_map_of_mem hu)
  · intro e
    simp only [div_eq_mul_inv]
    rw [List.sum_map_mul_right, ← hsum, mul_inv_cancel₀ (hpos e).ne']
  · simp only [encode, hlog, Bool.false_eq_true, if_false] at h5
    rw [h5]
    refine congrArg _ (List.flatMap_congr fun e _ => ?_)
    refine congrArg (· ++ _) ?_
    simp only [catSites, hindv]
    refine List.ext_getElem (by simp) fun m h1 h2 => ?_
    simp only [List.getElem_mapIdx, List.getElem_map, div_fin (hpos e).ne']

/-- **C126, refuted for log weights**: the subpopulation weights are not exponentiated like the total, so what is recorded for a subpopulation is its
*log* weight over the total weight, and never a share when the total weight is below 1: every value is negative. -/
theorem C126_log_fails {E N M : ℕ} (fl : Flags) (hlog : fl.log = true) (us : List (Fin E → Fin N → ℝ)) (w : Fin E → Fin N → ℝ) (v : Fin M → ℝ) (n : ℕ)
    (Tobs : F) (hv : Option F) (unscaled : F) (p : PPC E N M) (hfl : fl.ok)
    (hhv : fl.reconstruct_rate = true → hv ≠ none) (hindv : p.indv = some (us.map fun u e i => F.log (fin (u e i)))) (hE : 0 < E)
    (hus : ∀ u ∈ us, ∀ e i, 0 < u e i) (hsum : ∀ e i, w e i = (us.map fun u => u e i).sum) (hw1 : ∀ e i, w e i < 1) (hv0 : ∀ i, 0 ≤ v i)
    (m1 q : Fin E → Fin N → ℝ) (im1 iq : Fin M → ℝ)
    (hm1 : p.pedata "mass_1" = some fun e j => fin (m1 e j)) (hq : p.pedata "mass_ratio" = some fun e j => fin (q e j))
    (him1 : p.injdata "mass_1" = some fun k => fin (im1 k)) (hiq : p.injdata "mass_ratio" = some fun k => fin (iq k))
    (a b c : ℝ) (ha : p.m1min = fin a) (hb : p.mmax = fin b) (hc : p.m2min = fin c)
    (pd : String → Fin E → Fin N → F) (id : String → Fin M → F)
    (hpd : ∀ name ∈ p.param_names, p.pedata name = some (pd name))
    (hid : ∀ name ∈ p.param_names, p.injdata name = some (id name))
    (hu : ∀ key, 0 ≤ p.unif key ∧ p.unif key < 1)
    (hadm : ∀ e, ∃ j, (a ≤ m1 e j ∧ m1 e j ≤ b ∧ c ≤ m1 e j * q e j) ∧ 0 < w e j)
    (hadmi : ∃ k, (a ≤ im1 k ∧ im1 k ≤ b ∧ c ≤ im1 k * iq k) ∧ 0 < v k) :
    ∃ (j : Fin E → Fin N) (k : Fin E → Fin M) (value : Fin E → List ℝ),
      (∀ e, value e = us.map fun u => Real.log (u e (j e)) / w e (j e)) ∧ (∀ e, ∀ f ∈ value e, f < 0) ∧
      (hierarchical_likelihood fl (.single fun e i => F.log (fin (w e i))) (fun i => F.log (fin (v i))) n E Tobs hv unscaled (some p)).1
        = (hierarchical_likelihood fl (.single fun e i => F.log (fin (w e i))) (fun i => F.log (fin (v i))) n E Tobs hv unscaled none).1 ++
          (List.finRange E).flatMap fun e => ((value e).mapIdx fun i f => Site.det s!"cat_frac_subpop_{i + 1}_event_{e.1}" [fin f]) ++
            ppcSites p.param_names pd id e (j e) (k e) := by
  have hw : ∀ e i, 0 ≤ w e i := fun e i => by
    rw [hsum]
    refine List.sum_nonneg fun x hx => ?_
    obtain ⟨u, hu, rfl⟩ := List.mem_map.1 hx
    exact (hus u hu e i).le
  obtain ⟨j, k, -, -, h3, -, h5⟩ := ppc_exact_cats fl w v n Tobs hv unscaled p hfl hhv hE hw hv0 m1 q im1 iq hm1 hq him1 hiq a b c ha hb hc
    pd id hpd hid hu hadm hadmi
  have hpos : ∀ e, 0 < w e (j e) := fun e => (h3 e).2
  refine ⟨j, k, fun e => us.map fun u => Real.log (u e (j e)) / w e (j e), fun _ => rfl, ?_, ?_⟩
  · intro e f hf
    obtain ⟨u, hu, rfl⟩ := List.mem_map.1 hf
    refine div_neg_of_neg_of_pos (Real.log_neg (hus u hu _ _) (lt_of_le_of_lt ?_ (hw1 e (j e)))) (hpos e)
    rw [hsum]
    exact List.single_le_sum (fun x hx => by obtain ⟨u', hu', rfl⟩ := List.mem_map.1 hx; exact (hus u' hu' _ _).le) _ (List.mem_map_of_mem hu)
  · simp only [encode, hlog, if_true] at h5
    rw [h5]
    refine congrArg _ (List.flatMap_congr fun e _ => ?_)
    refine congrArg (· ++ _) ?_
    simp only [catSites, hindv]
    refine List.ext_getElem (by simp) fun m h1 h2 => ?_
    have hp : 0 < (us[m]'(by simpa using h1)) e (j e) := hus _ (List.getElem_mem _) _ _
    simp only [List.getElem_mapIdx, List.getElem_map, log_fin hp, div_fin (hpos e).ne']

/-- two subpopulations contributing a quarter and three quarters of every weight: the recorded values -/
example (Tobs unscaled : F) : ∃ sites, (hierarchical_likelihood (E := 1) (N := 2) (M := 2) { reconstruct_rate := false }
    (.single fun _ _ => fin 4) (fun _ => fin 1) 10 1 Tobs none unscaled
    (some { param_names := [], unif := fun _ => 1 / 2, indv := some [fun _ _ => fin 1, fun _ _ => fin 3]
            pedata := fun s => if s = "mass_1" then some fun _ _ => fin 20 else if s = "mass_ratio" then some fun _ _ => fin (1 / 2) else none
            injdata := fun s => if s = "mass_1" then some fun _ => fin 20 else if s = "mass_ratio" then some fun _ => fin (1 / 2) else none })).1 =
      sites ++ [.det "cat_frac_subpop_1_event_0" [fin (1 / 4)], .det "cat_frac_subpop_2_event_0" [fin (3 / 4)]] := by
  obtain ⟨j, k, sh, h1, -, -, h⟩ := C126_fractions_partial (E := 1) (N := 2) (M := 2) { reconstruct_rate := false } rfl [fun _ _ => 1, fun _ _ => 3]
    (fun _ _ => 4) (fun _ => 1) 10 Tobs none unscaled
    { param_names := [], unif := fun _ => 1 / 2, indv := some [fun _ _ => fin 1, fun _ _ => fin 3]
      pedata := fun s => if s = "mass_1" then some fun _ _ => fin 20 else if s = "mass_ratio" then some fun _ _ => fin (1 / 2) else none
      injdata := fun s => if s = "mass_1" then some fun _ => fin 20 else if s = "mass_ratio" then some fun _ => fin (1 / 2) else none }
    (by simp [Flags.ok]) (by simp) rfl (by norm_num) (by intro u hu e i; simp at hu; rcases hu with rfl | rfl <;> norm_num) (by intros; norm_num)
    (by intros; norm_num) (fun _ _ => 20) (fun _ _ => 1 / 2) (fun _ => 20) (fun _ => 1 / 2)
    (by simp) (by simp) (by simp) (by simp) 5 100 3 rfl rfl rfl (fun _ _ _ => fin 0) (fun _ _ => fin 0) (by simp) (by simp)
    (by intro; norm_num) (fun _ => ⟨1, by norm_num⟩) ⟨1, by norm_num⟩
  refine ⟨_, h.trans (congrArg _ ?_)⟩
  simp [ppcSites, h1, List.finRange_succ]
  decide

/-- two subpopulations contributing `exp(-2)` and `exp(-3)` in logs: the recorded values are negative -/
example (Tobs unscaled : F) : ∃ value : List ℝ, (∀ f ∈ value, f < 0) ∧ value ≠ [] ∧
    ∃ sites, (hierarchical_likelihood (E := 1) (N := 2) (M := 2) { log := true, reconstruct_rate := false }
    (.single fun _ _ => F.log (fin (Real.exp (-2) + Real.exp (-3)))) (fun _ => F.log (fin 1)) 10 1 Tobs none unscaled
    (some { param_names := [], unif := fun _ => 1 / 2, indv := some [fun _ _ => F.log (fin (Real.exp (-2))), fun _ _ => F.log (fin (Real.exp (-3)))]
            pedata := fun s => if s = "mass_1" then some fun _ _ => fin 20 else if s = "mass_ratio" then some fun _ _ => fin (1 / 2) else none
            injdata := fun s => if s = "mass_1" then some fun _ => fin 20 else if s = "mass_ratio" then some fun _ => fin (1 / 2) else none })).1 =
      sites ++ (value.mapIdx fun i f => Site.det s!"cat_frac_subpop_{i + 1}_event_{0}" [fin f]) := by
  have he : Real.exp (-2) + Real.exp (-3) < 1 := by
    have h1 : Real.exp (-2) < 1 / 2 := by
      rw [Real.exp_neg, one_div]
      exact inv_strictAnti₀ two_pos (by have := Real.add_one_lt_exp (x := 2) (by norm_num); linarith)
    have h2 : Real.exp (-3) < Real.exp (-2) := Real.exp_lt_exp.2 (by norm_num)
    linarith
  obtain ⟨j, k, value, h1, h2, h⟩ := C126_log_fails (E := 1) (N := 2) (M := 2) { log := true, reconstruct_rate := false } rfl
    [fun _ _ => Real.exp (-2), fun _ _ => Real.exp (-3)] (fun _ _ => Real.exp (-2) + Real.exp (-3)) (fun _ => 1) 10 Tobs none unscaled
    { param_names := [], unif := fun _ => 1 / 2, indv := some [fun _ _ => F.log (fin (Real.exp (-2))), fun _ _ => F.log (fin (Real.exp (-3)))]
      pedata := fun s => if s = "mass_1" then some fun _ _ => fin 20 else if s = "mass_ratio" then some fun _ _ => fin (1 / 2) else none
      injdata := fun s => if s = "mass_1" then some fun _ => fin 20 else if s = "mass_ratio" then some fun _ => fin (1 / 2) else none }
    (by simp [Flags.ok]) (by simp) rfl (by norm_num)
    (by intro u hu e i; simp only [List.mem_cons, List.not_mem_nil, or_false] at hu; rcases hu with rfl | rfl <;> exact Real.exp_pos _) (by intros; simp)
    (fun _ _ => he) (by intros; norm_num) (fun _ _ => 20) (fun _ _ => 1 / 2) (fun _ => 20) (fun _ => 1 / 2)
    (by simp) (by simp) (by simp) (by simp) 5 100 3 rfl rfl rfl (fun _ _ _ => fin 0) (fun _ _ => fin 0) (by simp) (by simp)
    (by intro; norm_num) (fun _ => ⟨1, by norm_num, by positivity⟩) ⟨1, by norm_num⟩
  refine ⟨value 0, h2 0, by rw [h1]; simp, _, h.trans (congrArg _ ?_)⟩
  simp [ppcSites, List.finRange_succ]

/-- **C49 needs the two mass columns**, whatever the parameters analysed: without `mass_1` or `mass_ratio` among the samples or the
injections the predictive check raises a `KeyError` naming the first missing column (samples before injections), after all statements of the
likelihood have been executed. -/
theorem C49_missing_column {E N M : ℕ} (fl : Flags) (pe : Fin E → Fin N → F) (inj : Fin M → F) (total_inj Nobs : ℕ) (Tobs : F) (hv : Option F)
    (unscaled : F) (p : PPC E N M) (hfl : fl.ok) (hhv : fl.reconstruct_rate = true → hv ≠ none) (k : String)
    (hk : (k = "mass_1" ∧ p.pedata "mass_1" = none) ∨
      (k = "mass_ratio" ∧ p.pedata "mass_1" ≠ none ∧ p.pedata "mass_ratio" = none) ∨
      (k = "mass_1" ∧ p.pedata "mass_1" ≠ none ∧ p.pedata "mass_ratio" ≠ none ∧ p.injdata "mass_1" = none) ∨
      (k = "mass_ratio" ∧ p.pedata "mass_1" ≠ none ∧ p.pedata "mass_ratio" ≠ none ∧ p.injdata "mass_1" ≠ none ∧ p.injdata "mass_ratio" = none)) :
    hierarchical_likelihood fl (.single pe) inj total_inj Nobs Tobs hv unscaled (some p) =
      ((hierarchical_likelihood fl (.single pe) inj total_inj Nobs Tobs hv unscaled none).1, .error (.keyError k)) := by
  have hr : ∃ rp, ratePart fl hv Tobs unscaled (detection_efficiency inj total_inj fl.log).1 = .ok rp := by
    unfold ratePart
    cases hb : fl.reconstruct_rate with
    | false => exact ⟨_, rfl⟩
    | true =>
      cases hv with
      | none => exact absurd rfl (hhv hb)
      | some v => exact ⟨_, rfl⟩
  obtain ⟨rp, hrp⟩ := hr
  have hrun : ppcRun fl.log pe inj Nobs p = ([], .error (.keyError k)) := by
    unfold ppcRun getKey
    rcases hk with ⟨rfl, h1⟩ | ⟨rfl, h1, h2⟩ | ⟨rfl, h1, h2, h3⟩ | ⟨rfl, h1, h2, h3, h4⟩
    · rw [h1]
    · obtain ⟨a, ha⟩ := Option.ne_none_iff_exists'.1 h1
      rw [ha, h2]
    · obtain ⟨a, ha⟩ := Option.ne_none_iff_exists'.1 h1
      obtain ⟨b, hb⟩ := Option.ne_none_iff_exists'.1 h2
      rw [ha, hb, h3]
    · obtain ⟨a, ha⟩ := Option.ne_none_iff_exists'.1 h1
      obtain ⟨b, hb⟩ := Option.ne_none_iff_exists'.1 h2
      obtain ⟨c, hc⟩ := Option.ne_none_iff_exists'.1 h3
      rw [ha, hb, hc, h4]
  unfold hierarchical_likelihood
  rw [if_neg hfl, if_neg hfl]
  simp only [hrp, ppcOf, hrun]
  simp [Except.map]

/-- an analysis of the redshifts alone -/
example (Tobs unscaled : F) : (hierarchical_likelihood (E := 1) (N := 2) (M := 2) { log := true, reconstruct_rate := false }
    (.single fun _ _ => encode true 1) (fun _ => encode true 1) 10 1 Tobs none unscaled
    (some { param_names := ["redshift"], unif := fun _ => 1 / 2, pedata := fun s => if s = "redshift" then some fun _ _ => fin 1 else none
            injdata := fun s => if s = "redshift" then some fun _ => fin 1 else none })).2 = .error (.keyError "mass_1") := by
  rw [C49_missing_column _ _ _ _ _ _ _ _ _ (by simp [Flags.ok]) (by simp) "mass_1" (Or.inl ⟨rfl, by simp⟩)]

/-- **C49/C79 fails**: with `categorical=True` the posterior predictive check never completes, for any weights, labels,
data or random numbers (one or more events). -/
theorem C79_categorical_ppc_fails {E N M : ℕ} (fl : Flags) (w0 w1 : Fin E → Fin N → F) (Qs : Fin E → ℕ) (inj : Fin M → F)
    (total_inj Nobs : ℕ) (hN : 0 < Nobs) (Tobs : F) (hv : Option F) (unscaled : F) (p : PPC E N M) :
    ∃ e, (hierarchical_likelihood fl (.categorical w0 w1 Qs) inj total_inj Nobs Tobs hv unscaled (some p)).2 = .error e := by
  have h : ∃ e, (ppcRunCategorical Nobs p).2 = .error e := by
    unfold ppcRunCategorical
    cases getKey p.pedata "mass_1" with
    | error e => exact ⟨e, rfl⟩
    | ok _ => cases getKey p.pedata "mass_ratio" with
      | error e => exact ⟨e, rfl⟩
      | ok _ => cases getKey p.injdata "mass_1" with
        | error e => exact ⟨e, rfl⟩
        | ok _ => cases getKey p.injdata "mass_ratio" with
          | error e => exact ⟨e, rfl⟩
          | ok _ => simp only [hN.ne', if_false]; exact ⟨_, rfl⟩
  unfold hierarchical_likelihood
  by_cases hfl : fl.max_variance_cut = true ∧ (fl.marginalize_selection = true ∨ fl.min_neff_cut = true)
  · rw [if_pos hfl]; exact ⟨_, rfl⟩
  · rw [if_neg hfl]
    simp only
    cases ratePart fl hv Tobs unscaled (detection_efficiency inj total_inj fl.log).1 with
    | error e => exact ⟨e, rfl⟩
    | ok rp =>
      obtain ⟨e, he⟩ := h
      simp only [ppcOf, he]
      exact ⟨e, rfl⟩

/-- **C79**. With `categorical=True` and no predictive check, the run is the draw of the labels followed by exactly the
run on the array whose row `i` is the first component's row when the label of event `i` is 0 and the second's
otherwise.  Partial; missing: the predictive check with `categorical=True`: `C79_categorical_ppc_fails`. -/
theorem C79_labels_select_partial {E N M : ℕ} (fl : Flags) (w0 w1 w : Fin E → Fin N → F) (Qs : Fin E → ℕ) (inj : Fin M → F)
    (total_inj Nobs : ℕ) (Tobs : F) (hv : Option F) (unscaled : F) (hfl : fl.ok) (h0 : ∀ i, Qs i = 0 → w i = w0 i)
    (h1 : ∀ i, Qs i ≠ 0 → w i = w1 i) :
    (hierarchical_likelihood fl (.categorical w0 w1 Qs) inj total_inj Nobs Tobs hv unscaled none).1
      = .sample "Qs" :: (hierarchical_likelihood fl (.single w) inj total_inj Nobs Tobs hv unscaled none).1 ∧
    (hierarchical_likelihood fl (.categorical w0 w1 Qs) inj total_inj Nobs Tobs hv unscaled none).2
      = (hierarchical_likelihood fl (.single w) inj total_inj Nobs Tobs hv unscaled none).2 := by
  have hw : (PEWeights.categorical w0 w1 Qs).array = w := by
    funext i j
    simp only [PEWeights.array]
    by_cases h : Qs i = 0
    · rw [if_pos h, h0 i h]
    · rw [if_neg h, h1 i h]
  unfold hierarchical_likelihood
  rw [if_neg hfl, if_neg hfl, hw]
  simp only [PEWeights.sites, show (PEWeights.single w).array = w from rfl]
  cases ratePart fl hv Tobs unscaled (detection_efficiency inj total_inj fl.log).1 with
  | error e => exact ⟨rfl, rfl⟩
  | ok rp => exact ⟨by simp, rfl⟩

example : ∃ (w0 w1 w : Fin 2 → Fin 1 → F) (Qs : Fin 2 → ℕ), w0 ≠ w1 ∧ (∀ i, Qs i = 0 → w i = w0 i) ∧
    (∀ i, Qs i ≠ 0 → w i = w1 i) ∧ w ≠ w0 ∧ w ≠ w1 :=
  ⟨fun _ _ => fin 1, fun _ _ => fin 2, fun i _ => if i = 0 then fin 1 else fin 2, fun i => i.1,
    fun h => by have := congrFun (congrFun h 0) 0; simp at this,
    fun i hi => by funext j; simp [show i = 0 from Fin.ext hi],
    fun i hi => by funext j; simp [show i ≠ 0 from fun h => hi (by simp [h])],
    fun h => by have := congrFun (congrFun h 1) 0; simp at this,
    fun h => by have := congrFun (congrFun h 0) 0; simp at this⟩

end GW
end
