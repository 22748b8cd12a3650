import Verif.Model.Scripts
import Verif.Props.Conversions
import Verif.Props.Postprocess

/-!
# The shipped analyses: spin hyper-parameters (C96), evaluating the models (C97), the installed command (C98)
-/

open Finset
noncomputable section
open Classical
namespace GW
open F

/-! ## C96 -/

/-- the density of one spin magnitude that the power-law-peak example evaluates for sampled `mu`, `var` -/
def exampleSpinDensity (mu var x : ℝ) : ℝ := (beta_spin_magnitude (fin x) (fin (plpeakShapes mu var).1) (fin (plpeakShapes mu var).2)).toReal

theorem plpeakShapes_pos {mu var : ℝ} (h0 : 0 < mu) (h1 : mu < 1) (hv : 0 < var) :
    0 < (plpeakShapes mu var).1 ∧ 0 < (plpeakShapes mu var).2 := ⟨mul_pos h0 hv, mul_pos (by linarith) hv⟩

theorem plpeak_muVar {mu var : ℝ} (hv : 0 < var) :
    muVar (plpeakShapes mu var).1 (plpeakShapes mu var).2 1 = (mu, mu * (1 - mu) / (1 + var)) := by
  have hs : mu * var + (1 - mu) * var = var := by ring
  simp only [muVar, plpeakShapes, hs]
  refine Prod.ext ?_ ?_
  · simp only [mul_one]; field_simp
  · simp only [one_pow, mul_one]
    have : var + 1 ≠ 0 := by linarith
    have : 1 + var ≠ 0 := by linarith
    field_simp
    ring

/-- **C96, partial** (missing: the variance, see `C96_variance_fails`).  `mu_a` is the mean of the spin magnitude the example models. -/
theorem C96_mean_partial {mu var : ℝ} (h0 : 0 < mu) (h1 : mu < 1) (hv : 0 < var) :
    (∫ x in (0:ℝ)..1, x * exampleSpinDensity mu var x) = mu := by
  obtain ⟨ha, hb⟩ := plpeakShapes_pos h0 h1 hv
  have := (C59_moments_of_betadist (0 : F) ha hb one_pos).1
  rw [plpeak_muVar hv] at this
  exact this

/-- **C96 is false of `var_a`:** the variance of the spin magnitude is `mu (1 - mu) / (1 + var)`, and that is `var` only on the curve
`var (1 + var) = mu (1 - mu)`. -/
theorem C96_variance_fails {mu var : ℝ} (h0 : 0 < mu) (h1 : mu < 1) (hv : 0 < var) :
    (∫ x in (0:ℝ)..1, (x - mu) ^ 2 * exampleSpinDensity mu var x) = mu * (1 - mu) / (1 + var) ∧
    ((∫ x in (0:ℝ)..1, (x - mu) ^ 2 * exampleSpinDensity mu var x) = var ↔ var * (1 + var) = mu * (1 - mu)) := by
  obtain ⟨ha, hb⟩ := plpeakShapes_pos h0 h1 hv
  have := (C59_moments_of_betadist (0 : F) ha hb one_pos).2
  rw [plpeak_muVar hv] at this
  have e : (∫ x in (0:ℝ)..1, (x - mu) ^ 2 * exampleSpinDensity mu var x) = mu * (1 - mu) / (1 + var) := this
  refine ⟨e, ?_⟩
  rw [e, div_eq_iff (by linarith)]
  exact eq_comm

/-- **C96 is false: a larger `var_a` means a smaller variance**, for every mean. -/
theorem C96_variance_decreases_fails {mu var var' : ℝ} (h0 : 0 < mu) (h1 : mu < 1) (hv : 0 < var) (hvv : var < var') :
    (∫ x in (0:ℝ)..1, (x - mu) ^ 2 * exampleSpinDensity mu var' x) < ∫ x in (0:ℝ)..1, (x - mu) ^ 2 * exampleSpinDensity mu var x := by
  rw [(C96_variance_fails h0 h1 hv).1, (C96_variance_fails h0 h1 (hv.trans hvv)).1]
  exact div_lt_div_of_pos_left (mul_pos h0 (by linarith)) (by linarith) (by linarith)

theorem plpeakShapes_lt_one {mu var : ℝ} (h0 : 0 < mu) (h1 : mu < 1) (hv : 0 < var) (hv1 : var ≤ 0.25) :
    (plpeakShapes mu var).1 < 1 ∧ (plpeakShapes mu var).2 < 1 := by
  simp only [plpeakShapes]
  norm_num at hv1
  constructor <;> nlinarith

/-- **C96 is false for every value the prior allows:** whenever `mu_a` and `var_a` lie inside their prior ranges, both Beta shapes are
below 1, so the modelled spin density is infinite at magnitude 0 and at magnitude 1. -/
theorem C96_ends_fails (v : String → ℝ) (mmin mmax : ℝ) (c : String) (hc : c = "1" ∨ c = "2")
    (hs : ∀ p ∈ plpeakPriors mmin mmax, p.2.supports (v p.1)) (h0 : 0 < v ("mu_a" ++ c)) (h1 : v ("mu_a" ++ c) < 1) :
    let mu := v ("mu_a" ++ c)
    let var := v ("var_a" ++ c)
    beta_spin_magnitude (fin 0) (fin (mu * var)) (fin ((1 - mu) * var)) = pinf ∧
      beta_spin_magnitude (fin 1) (fin (mu * var)) (fin ((1 - mu) * var)) = pinf := by
  have hv : (0.005 : ℝ) ≤ v ("var_a" ++ c) ∧ v ("var_a" ++ c) ≤ 0.25 := by
    rcases hc with rfl | rfl
    · exact hs ("var_a1", .uniform 0.005 0.25) (by simp [plpeakPriors])
    · exact hs ("var_a2", .uniform 0.005 0.25) (by simp [plpeakPriors])
  have hv0 : 0 < v ("var_a" ++ c) := by have := hv.1; norm_num at this; linarith
  obtain ⟨ha, hb⟩ := plpeakShapes_pos h0 h1 hv0
  obtain ⟨ha1, hb1⟩ := plpeakShapes_lt_one h0 h1 hv0 hv.2
  exact ⟨(C23_endpoint_values _ _ 1 0 ha hb one_pos).2 ha1, (betadist_top ha hb one_pos).2 hb1⟩

theorem sum_pinf {ι : Type*} (s : Finset ι) (f : ι → F) (h : ∀ i ∈ s, (f i).isfinite ∨ f i = pinf) (h1 : ∃ i ∈ s, f i = pinf) :
    ∑ i ∈ s, f i = pinf := by
  have key : ∀ s : Finset ι, (∀ i ∈ s, (f i).isfinite ∨ f i = pinf) → (∑ i ∈ s, f i).isfinite ∨ ∑ i ∈ s, f i = pinf := by
    intro s
    induction s using Finset.induction_on with
    | empty => intro _; left; simp
    | insert a s ha ih =>
      intro h
      rw [sum_insert ha]
      rcases h a (mem_insert_self _ _) with ⟨x, hx⟩ | hx <;> rcases ih (fun i hi => h i (mem_insert_of_mem hi)) with ⟨y, hy⟩ | hy <;>
        rw [hx, hy] <;> simp
  obtain ⟨i, hi, e⟩ := h1
  rcases key s h with hf | hp
  · have := isfinite_of_sum s f hf i hi
    rw [e] at this
    simp at this
  · exact hp

/-- **C96 is false of the plotted curves:** for every such draw the spin-magnitude curve the example computes (and plots) is 0 at every
interior grid point and NaN at both ends. -/
theorem C96_curve_fails (mu var : ℕ → ℝ) (d : ℕ) (h0 : 0 < mu d) (h1 : mu d < 1) (hv : 0 < var d) (hv1 : var d ≤ 0.25) :
    let row := betaSpinPPD (fun d => mu d * var d) (fun d => (1 - mu d) * var d) 1 none none d
    (∀ i, 0 < i → i < 799 → row i = fin 0) ∧ row 0 = nan ∧ row 799 = nan := by
  intro row
  obtain ⟨ha, hb⟩ := plpeakShapes_pos h0 h1 hv
  obtain ⟨ha1, hb1⟩ := plpeakShapes_lt_one h0 h1 hv hv1
  set α := (plpeakShapes (mu d) (var d)).1
  set β := (plpeakShapes (mu d) (var d)).2
  set x := (linspace 0 1 ppdN).get with hx
  set p : ℕ → F := fun i => betadist (fin (x i)) (fin α) (fin β) (fin 1) with hp
  have hrow : row = ppdRow x p 1 1 := rfl
  have hN : ppdN = 800 := rfl
  have hmono : StrictMono x := linspace_strictMono one_pos two_le_ppdN
  have hx0 : x 0 = 0 := linspace_zero _ _ _
  have hxl : x 799 = 1 := linspace_last 0 1 two_le_ppdN
  have p0 : p 0 = pinf := by simp only [hp, hx0]; exact (C23_endpoint_values _ _ 1 0 ha hb one_pos).2 ha1
  have pl : p 799 = pinf := by simp only [hp, hxl]; exact (betadist_top ha hb one_pos).2 hb1
  have pin : ∀ i, 0 < i → i < 799 → (p i).isfinite := by
    intro i hi hi'
    have a1 := hmono hi
    have a2 := hmono hi'
    rw [hx0] at a1
    rw [hxl] at a2
    simp only [hp, betadist_in ha hb a1 a2]
    simp
  have pall : ∀ i ≤ 799, (p i).isfinite ∨ p i = pinf := by
    intro i hi
    rcases Nat.eq_zero_or_pos i with h | h
    · subst h; exact Or.inr p0
    · rcases Nat.lt_or_ge i 799 with h' | h'
      · exact Or.inl (pin i h h')
      · obtain rfl : i = 799 := by omega
        exact Or.inr pl
  have mulpos : ∀ {a : ℝ} {b : F}, 0 < a → (b.isfinite ∨ b = pinf) → ((fin a * b).isfinite ∨ fin a * b = pinf) := by
    rintro a b h (⟨y, rfl⟩ | rfl)
    · left; simp
    · right; rw [fin_mul_pinf, infOfSign_pos h]
  have addok : ∀ {a b : F}, (a.isfinite ∨ a = pinf) → (b.isfinite ∨ b = pinf) → ((a + b).isfinite ∨ a + b = pinf) := by
    rintro a b (⟨y, rfl⟩ | rfl) (⟨z, rfl⟩ | rfl) <;> simp
  have htr : trapzF ppdN p (fun j => fin (x j)) = pinf := by
    unfold trapzF
    rw [sum_pinf (range (ppdN - 1)) (fun i => (fin (x (i + 1)) - fin (x i)) * (p (i + 1) + p i))]
    · rw [fin_mul_pinf, infOfSign_pos (by norm_num)]
    · intro i hi
      have hi := mem_range.mp hi
      rw [sub_fin]
      exact mulpos (sub_pos.mpr (hmono (Nat.lt_succ_self i))) (addok (pall _ (by omega)) (pall _ (by omega)))
    · refine ⟨0, mem_range.mpr (by omega), ?_⟩
      have e : p (0 + 1) + p 0 = pinf := by
        rw [p0]
        obtain ⟨y, hy⟩ := pin (0 + 1) (by norm_num) (by norm_num)
        rw [hy]; rfl
      show (fin (x (0 + 1)) - fin (x 0)) * (p (0 + 1) + p 0) = pinf
      rw [e, sub_fin, fin_mul_pinf, infOfSign_pos (sub_pos.mpr (hmono (Nat.lt_succ_self 0)))]
  rw [hrow]
  unfold ppdRow
  rw [htr]
  refine ⟨fun i hi hi' => ?_, ?_, ?_⟩
  · obtain ⟨y, hy⟩ := pin i hi hi'
    rw [hy]; simp
  · rw [p0]; simp [fin_mul_pinf, infOfSign_pos]
  · rw [pl]; simp [fin_mul_pinf, infOfSign_pos]

/-- A mean of 1/2 with `var_a = 1/10` meets the hypotheses: the true variance is 5/22, not 1/10. -/
example : (∫ x in (0:ℝ)..1, (x - 1 / 2) ^ 2 * exampleSpinDensity (1 / 2) (1 / 10) x) = 5 / 22 := by
  rw [(C96_variance_fails (mu := 1 / 2) (var := 1 / 10) (by norm_num) (by norm_num) (by norm_num)).1]; norm_num

/-! ## C97 -/

/-- **C97 (what it means for a call to bind).**  A call with `npos` positional arguments and keywords `kws` binds exactly when there are not
more positional arguments than parameters, every keyword names a parameter, no parameter gets both a positional argument and a keyword,
and every parameter without a default gets one of the two. -/
theorem C97_binding (ps : List Param) (npos : ℕ) (kws : List String) : bindCall ps npos kws = .ok () ↔
    npos ≤ ps.length ∧ (∀ k ∈ kws, ∃ p ∈ ps, p.name = k) ∧
    ∀ i (hi : i < ps.length), (i < npos → ps[i].name ∉ kws) ∧ (npos ≤ i → ps[i].optional = false → ps[i].name ∈ kws) := by
  unfold bindCall
  split_ifs with h1 h2 h3 h4
  · simp only [false_iff, reduceCtorEq]; exact fun h => absurd h.1 (not_le.2 h1)
  · simp only [false_iff, reduceCtorEq]; rintro ⟨-, h, -⟩
    obtain ⟨k, hk, hn⟩ := h2
    obtain ⟨p, hp, rfl⟩ := h k hk
    exact hn (List.mem_map_of_mem hp)
  · simp only [false_iff, reduceCtorEq]; rintro ⟨-, -, h⟩
    obtain ⟨k, hk, hn⟩ := h3
    obtain ⟨p, hp, rfl⟩ := List.mem_map.1 hn
    obtain ⟨i, hi, rfl⟩ := List.mem_take_iff_getElem.1 hp
    exact (h i (by omega)).1 (by omega) hk
  · simp only [false_iff, reduceCtorEq]; rintro ⟨-, -, h⟩
    obtain ⟨p, hp, ho, hn⟩ := h4
    obtain ⟨i, hi, rfl⟩ := List.mem_drop_iff_getElem.1 hp
    exact hn ((h (npos + i) (by omega)).2 (by omega) ho)
  · simp only [true_iff]
    push Not at h1 h2 h3 h4
    refine ⟨h1, fun k hk => by simpa using h2 k hk, fun i hi => ⟨fun hin hk => ?_, fun hin ho => ?_⟩⟩
    · exact h3 _ hk (List.mem_map.2 ⟨ps[i], List.mem_take_iff_getElem.2 ⟨i, by omega, rfl⟩, rfl⟩)
    · refine h4 ps[i] (List.mem_drop_iff_getElem.2 ⟨i - npos, by omega, ?_⟩) ho
      congr 1; omega

/-- every parameter bound by a call must be declared -/
theorem bindCall_unknown {ps : List Param} {n : ℕ} {kws : List String} (k : String) (hk : k ∈ kws) (hp : k ∉ ps.map Param.name) :
    bindCall ps n kws = .error .typeError := by
  unfold bindCall
  split_ifs with h1 h2 h3 h4 <;> first | rfl | exact absurd ⟨k, hk, hp⟩ h2

theorem plpeak_call_unbound : bindCall likelihoodParams 5 plpeakExampleCall = .error .typeError :=
  bindCall_unknown "surv_hypervolume_fct" (by simp [plpeakExampleCall]) (by simp [likelihoodParams])
theorem bspline_call_unbound : bindCall likelihoodParams 5 bsplineExampleCall = .error .typeError :=
  bindCall_unknown "surv_hypervolume_fct" (by simp [bsplineExampleCall]) (by simp [likelihoodParams])

/-- the columns the examples need -/
def HasColumns (d : PyDict (Arr ℝ)) (ks : List String) : Prop := ∀ k ∈ ks, ∃ a, d.get? k = some a

theorem need'_ok {α : Type} {d : PyDict α} {k : String} {a : α} (h : d.get? k = some a) : need' d k = .ok a := by
  unfold need'; rw [h]

theorem never_ok_bind {α β : Type} {x : Except PyErr α} {f : α → Except PyErr β} (h : ∀ a b, f a ≠ .ok b) (b : β) : (x >>= f) ≠ .ok b := by
  cases x with
  | error e => simp [bind, Except.bind]
  | ok a => exact h a b

/-- **C97 is false of the power-law-peak example:** no evaluation of its model ever completes, whatever the data and hyper-parameters
(and whatever the likelihood would do). -/
theorem C97_plpeak_fails (v : String → ℝ) (mmin mmax : ℝ) (zm : ZModel) (pe inj : PyDict (Arr ℝ)) (like : (ℕ → F) → (ℕ → F) → Except PyErr Unit) :
    plpeakModel v mmin mmax zm pe inj like ≠ .ok () := by
  unfold plpeakModel
  refine never_ok_bind (fun _ _ => never_ok_bind (fun _ _ => ?_) _) _
  rw [plpeak_call_unbound]
  simp [bind, Except.bind]

/-- the columns of the power-law-peak example -/
def plpeakColumns : List String := ["mass_1", "mass_ratio", "a_1", "a_2", "cos_tilt_1", "cos_tilt_2", "redshift", "prior"]

/-- **C97, partial** (missing: the likelihood call, see `C97_plpeak_fails`).  With complete data the weight of every sample is the product
of the mass, spin-magnitude, tilt and redshift densities at that sample's own coordinates with each parameter's own hyper-parameters,
divided by the sample's prior. -/
theorem C97_plpeak_weights_partial (v : String → ℝ) (mmin mmax : ℝ) (zm : ZModel) (twoD : Bool) (d : PyDict (Arr ℝ)) (hd : HasColumns d plpeakColumns) :
    ∃ (w : ℕ → F) (m1 q a1 a2 t1 t2 z pr : Arr ℝ), plpeakWeight v mmin mmax zm twoD d = .ok w ∧
      d.get? "mass_1" = some m1 ∧ d.get? "mass_ratio" = some q ∧ d.get? "a_1" = some a1 ∧ d.get? "a_2" = some a2 ∧
      d.get? "cos_tilt_1" = some t1 ∧ d.get? "cos_tilt_2" = some t2 ∧ d.get? "redshift" = some z ∧ d.get? "prior" = some pr ∧
      ∀ i, w i =
        plpeak_primary_ratio_pdf (fin (m1.get i)) (fin (q.get i)) (fin (v "alpha")) (fin (v "beta")) (fin mmin) (fin mmax)
          (fin (v "mu_peak")) (fin (v "sig_peak")) (fin (v "lambda_m")) *
        (betadist (fin (a1.get i)) (fin (v "mu_a1" * v "var_a1")) (fin ((1 - v "mu_a1") * v "var_a1")) *
          betadist (fin (a2.get i)) (fin (v "mu_a2" * v "var_a2")) (fin ((1 - v "mu_a2") * v "var_a2"))) *
        (mixture_isoalign_spin_tilt (fin (t1.get i)) (fin (v "lambda_ct1")) (fin (v "sig_ct1")) *
          mixture_isoalign_spin_tilt (fin (t2.get i)) (fin (v "lambda_ct2")) (fin (v "sig_ct2"))) *
        zm.call twoD z (v "lamb") i / fin (pr.get i) := by
  obtain ⟨m1, h1⟩ := hd "mass_1" (by simp [plpeakColumns])
  obtain ⟨q, h2⟩ := hd "mass_ratio" (by simp [plpeakColumns])
  obtain ⟨a1, h3⟩ := hd "a_1" (by simp [plpeakColumns])
  obtain ⟨a2, h4⟩ := hd "a_2" (by simp [plpeakColumns])
  obtain ⟨t1, h5⟩ := hd "cos_tilt_1" (by simp [plpeakColumns])
  obtain ⟨t2, h6⟩ := hd "cos_tilt_2" (by simp [plpeakColumns])
  obtain ⟨z, h7⟩ := hd "redshift" (by simp [plpeakColumns])
  obtain ⟨pr, h8⟩ := hd "prior" (by simp [plpeakColumns])
  unfold plpeakWeight
  simp only [need'_ok h1, need'_ok h2, need'_ok h3, need'_ok h4, need'_ok h5, need'_ok h6, need'_ok h7, need'_ok h8, bind, Except.bind]
  exact ⟨_, m1, q, a1, a2, t1, t2, z, pr, rfl, h1, h2, h3, h4, h5, h6, h7, h8, fun _ => rfl⟩

/-- **C97 is false of the power-law-peak example also with complete data:** the evaluation raises `TypeError`. -/
theorem C97_plpeak_complete_fails (v : String → ℝ) (mmin mmax : ℝ) (zm : ZModel) (pe inj : PyDict (Arr ℝ))
    (like : (ℕ → F) → (ℕ → F) → Except PyErr Unit) (hpe : HasColumns pe plpeakColumns) (hinj : HasColumns inj plpeakColumns) :
    plpeakModel v mmin mmax zm pe inj like = .error .typeError := by
  obtain ⟨w, _, _, _, _, _, _, _, _, h, _⟩ := C97_plpeak_weights_partial v mmin mmax zm true pe hpe
  obtain ⟨w', _, _, _, _, _, _, _, _, h', _⟩ := C97_plpeak_weights_partial v mmin mmax zm false inj hinj
  unfold plpeakModel
  rw [h, h', plpeak_call_unbound]
  rfl

/-- a program that never completes -/
def Never {α : Type} (p : Prog α) : Prop := ∀ tr r, p tr ≠ .ok r

theorem never_bind {α β : Type} {p : Prog α} {f : α → Prog β} (h : ∀ a, Never (f a)) : Never (p >>= f) := by
  intro tr r
  show (StateT.bind p f) tr ≠ _
  unfold StateT.bind
  cases hp : p tr with
  | error e => simp [bind, Except.bind]
  | ok x => exact h x.1 x.2 r

theorem never_throw {α : Type} (e : PyErr) : Never (throw e : Prog α) := by
  intro tr r h
  cases h

theorem never_lift_bind {α β : Type} {x : Except PyErr α} {f : α → Prog β} (hx : ∃ e, x = .error e) : Never ((x : Prog α) >>= f) := by
  obtain ⟨e, rfl⟩ := hx
  intro tr r h
  cases h

/-- **C97 is false of the B-spline example:** no evaluation of its model ever completes, whatever the draws, sizes, models and data. -/
theorem C97_bspline_fails (draws : String → ℕ → ℝ) (sizes : PyDict ℕ) (mass mag tilt : Pair) (zm : PLSpline) (pe inj : PyDict (Arr ℝ))
    (like : List F → List F → Prog Unit) (tr : List PSite) (r : Unit × List PSite) :
    bsplineModel draws sizes mass mag tilt zm pe inj like tr ≠ .ok r := by
  have : Never (bsplineModel draws sizes mass mag tilt zm pe inj like) := by
    unfold bsplineModel
    exact never_bind fun c => never_bind fun w1 => never_bind fun w2 => never_lift_bind ⟨_, bspline_call_unbound⟩
  exact this tr r

theorem lift_run {α β : Type} (a : α) (f : α → Prog β) (tr : List PSite) : (((.ok a : Except PyErr α) : Prog α) >>= f) tr = f a tr := rfl

theorem liftM_run {α : Type} (a : α) (tr : List PSite) : (liftM (Except.ok a : Except PyErr α) : Prog α) tr = .ok (a, tr) := rfl

/-- **C97, partial** (the B-spline example's priors; missing: the likelihood call, see `C97_bspline_fails`).  Every coefficient vector of the
example is a site of its own, of the size given for its parameter (the two spins have the sizes of the first one); the redshift vector starts
with a zero. -/
theorem C97_bspline_draws_partial (draws : String → ℕ → ℝ) (sizes : PyDict ℕ) (nm nq na nt nz : ℕ) (h1 : sizes.get? "m1" = some nm)
    (h2 : sizes.get? "q" = some nq) (h3 : sizes.get? "a1" = some na) (h4 : sizes.get? "tilt1" = some nt) (h5 : sizes.get? "redshift" = some (nz + 1)) :
    ∃ (c : ExampleDraws) (tr : List PSite), bsplineDraws draws sizes [] = .ok (c, tr) ∧
      c.mass_cs = (List.range nm).map (draws "mass_cs") ∧ c.q_cs = (List.range nq).map (draws "q_cs") ∧
      c.a1_cs = (List.range na).map (draws "a1_cs") ∧ c.a2_cs = (List.range na).map (draws "a2_cs") ∧
      c.tilt1_cs = (List.range nt).map (draws "tilt1_cs") ∧ c.tilt2_cs = (List.range nt).map (draws "tilt2_cs") ∧
      c.z_cs = 0 :: (List.range nz).map (draws "z_cs") ∧ c.lamb = draws "lamb" 0 ∧
      (tr.filterMap fun | .sample n sd k => some (n, sd, k) | .factor _ _ => none) =
        [("mass_cs", 15, nm), ("q_cs", 5, nq), ("a1_cs", 5, na), ("a2_cs", 5, na), ("tilt1_cs", 5, nt), ("tilt2_cs", 5, nt), ("z_cs", 1, nz),
          ("lamb", 3, 1)] := by
  have key : ∃ tr : List PSite, bsplineDraws draws sizes [] = .ok ((⟨(List.range nm).map (draws "mass_cs"), (List.range nq).map (draws "q_cs"),
      (List.range na).map (draws "a1_cs"), (List.range na).map (draws "a2_cs"), (List.range nt).map (draws "tilt1_cs"),
      (List.range nt).map (draws "tilt2_cs"), 0 :: (List.range nz).map (draws "z_cs"), draws "lamb" 0⟩ : ExampleDraws), tr) ∧
      (tr.filterMap fun | .sample n sd k => some (n, sd, k) | .factor _ _ => none) =
        [("mass_cs", 15, nm), ("q_cs", 5, nq), ("a1_cs", 5, na), ("a2_cs", 5, na), ("tilt1_cs", 5, nt), ("tilt2_cs", 5, nt), ("z_cs", 1, nz),
          ("lamb", 3, 1)] := by
    unfold bsplineDraws
    rw [need'_ok h1, lift_run, need'_ok h2, lift_run]
    simp [liftM_run, bspline_mass_prior, bspline_spin_prior, bspline_redshift_prior, sampleScalar, sampleNormal, penaltyFactor, emit, suffix, PSite.name, bind, StateT.bind,
      Except.bind, pure, StateT.pure, Except.pure, need'_ok h3, need'_ok h4, need'_ok h5, Option.isSome, Option.isNone, if_true, if_false, List.map_append, List.map_cons, List.map_nil,
      List.nil_append, List.cons_append, List.mem_cons, List.not_mem_nil, Bool.false_eq_true, and_false, false_and, reduceCtorEq, or_false]
  obtain ⟨tr, h, hs⟩ := key
  exact ⟨_, tr, h, rfl, rfl, rfl, rfl, rfl, rfl, rfl, rfl, hs⟩

/-- the sizes of the example's command line: 64 mass splines, 18 of each other kind, 20 in redshift -/
example (draws : String → ℕ → ℝ) :=
  C97_bspline_draws_partial draws [("m1", 64), ("q", 18), ("a1", 18), ("tilt1", 18), ("redshift", 20)] 64 18 18 18 19 rfl rfl rfl rfl rfl

/-- **C97, partial** (the B-spline example's weights).  Entry `i` of the weights is the product of the mass-ratio and primary-mass values, the two
spin-magnitude values, the two tilt values and the redshift value, each with its own coefficients, divided by the prior of sample `i`. -/
theorem C97_bspline_weights_partial (mass mag tilt : Pair) (zm : PLSpline) (mc qc a1 a2 t1 t2 zc : List ℝ) (lamb : ℝ) (pe : Bool)
    (d : PyDict (Arr ℝ)) (z pr : Arr ℝ) (hz : d.get? "redshift" = some z) (hp : d.get? "prior" = some pr) :
    ∃ w, bsplineWeights mass mag tilt zm mc qc a1 a2 t1 t2 zc lamb pe d = .ok w ∧
      ∀ (i : ℕ) (xm xq x1 x2 y1 y2 : F), (mass.m1.call (fun k => mc.getD k 0) pe)[i]? = some xm → (mass.m2.call (fun k => qc.getD k 0) pe)[i]? = some xq →
        (mag.m1.call (fun k => a1.getD k 0) pe)[i]? = some x1 → (mag.m2.call (fun k => a2.getD k 0) pe)[i]? = some x2 →
        (tilt.m1.call (fun k => t1.getD k 0) pe)[i]? = some y1 → (tilt.m2.call (fun k => t2.getD k 0) pe)[i]? = some y2 →
        i < z.len → i < pr.len →
        w[i]? = some (xq * xm * (x1 * x2) * (y1 * y2) * zm.call pe z lamb (fun k => zc.getD k 0) i / fin (pr.get i)) := by
  refine ⟨_, by unfold bsplineWeights; simp only [need'_ok hz, need'_ok hp, bind, Except.bind]; rfl, ?_⟩
  intro i xm xq x1 x2 y1 y2 e1 e2 e3 e4 e5 e6 hi hi'
  have hc : ∀ l : List ℝ, coefFn l = fun k => l.getD k 0 := fun l => rfl
  simp only [divArr, mulArr, Pair.primaryRatioCall, Pair.indCall, List.getElem?_zipWith, hc, e1, e2, e3, e4, e5, e6, List.getElem?_map,
    List.getElem?_range hi, List.getElem?_range hi', Option.map_some]

/-- **C97 is false of the shipped `model.py`:** its redshift distribution is constructed without its two required grids. -/
theorem C97_config_model_fails (pe inj : PyDict (Arr ℝ)) (like : Except PyErr Unit) : configModel pe inj like = .error .typeError := by
  have : bindCall powerlawRedshiftParams 1 ["maximum"] = .error .typeError := by
    unfold bindCall
    rw [if_neg (by simp [powerlawRedshiftParams]), if_neg (by simp [powerlawRedshiftParams]), if_neg (by simp [powerlawRedshiftParams]),
      if_pos ⟨⟨"zgrid", false⟩, by simp [powerlawRedshiftParams], rfl, by simp⟩]
  unfold configModel
  rw [this]
  rfl

/-- **C97, partial.**  The call made by the model that `construct_hierarchical_model` builds does bind, and so does the call of the two
examples once their two unknown keywords are replaced by `surveyed_hypervolume`. -/
theorem C97_constructed_partial : bindCall likelihoodParams 2 constructedCall = .ok () ∧
    bindCall likelihoodParams 5 ("surveyed_hypervolume" :: plpeakExampleCall.drop 2) = .ok () ∧
    bindCall likelihoodParams 5 ("surveyed_hypervolume" :: bsplineExampleCall.drop 2) = .ok () := by
  refine ⟨?_, ?_, ?_⟩ <;> unfold bindCall <;>
    rw [if_neg (by simp [likelihoodParams]), if_neg (by simp [likelihoodParams, constructedCall, plpeakExampleCall, bsplineExampleCall]),
      if_neg (by simp [likelihoodParams, constructedCall, plpeakExampleCall, bsplineExampleCall]),
      if_neg (by simp [likelihoodParams, constructedCall, plpeakExampleCall, bsplineExampleCall])]

/-- Data with the eight columns meets the hypotheses of the power-law-peak theorems. -/
example (v : String → ℝ) (zm : ZModel) (like : (ℕ → F) → (ℕ → F) → Except PyErr Unit) :
    plpeakModel v 2 100 zm (plpeakColumns.map fun k => (k, ⟨1, fun _ => 0.5⟩)) (plpeakColumns.map fun k => (k, ⟨1, fun _ => 0.5⟩)) like =
      .error .typeError := by
  refine C97_plpeak_complete_fails v 2 100 zm _ _ like ?_ ?_ <;>
  · intro k hk
    simp only [plpeakColumns, List.mem_cons, List.not_mem_nil, or_false] at hk
    rcases hk with rfl | rfl | rfl | rfl | rfl | rfl | rfl | rfl <;> exact ⟨_, rfl⟩

/-! ## C98 -/

/-- **C98 is false:** whatever the configuration and the data, the installed command ends with an `ImportError`. -/
theorem C98_import_fails (conf : ModelConf) (pe : PyDict (PyDict (List F))) (names : List String) (inj : PyDict (List F)) :
    runFromConfig conf pe names inj = .error (.importError "load_catalog_from_metadata") := by
  unfold runFromConfig importFrom
  rw [if_neg (by simp [dataCollectionNames])]
  rfl

theorem perParam_ok {α : Type} {f : String → Except PyErr α} : ∀ {ps : List String} {d : PyDict α}, perParam f ps = .ok d →
    d.keys = ps ∧ ∀ p ∈ ps, ∃ a, d.get? p = some a ∧ f p = .ok a := by
  intro ps
  induction ps with
  | nil =>
    intro d h
    cases h
    exact ⟨rfl, by simp⟩
  | cons p ps ih =>
    intro d h
    simp only [perParam, bind, Except.bind] at h
    split at h
    · cases h
    rename_i a ha
    split at h
    · cases h
    rename_i rest hrest
    cases h
    obtain ⟨h1, h2⟩ := ih hrest
    refine ⟨by simp [PyDict.keys] at h1 ⊢; exact h1, fun k hk => ?_⟩
    by_cases e : k = p
    · subst e
      exact ⟨a, by simp [PyDict.get?], ha⟩
    · rcases List.mem_cons.mp hk with hk | hk
      · exact absurd hk e
      · obtain ⟨b, hb, hf⟩ := h2 k hk
        refine ⟨b, ?_, hf⟩
        have e' : ¬ p = k := fun h => e h.symm
        simpa [PyDict.get?, e'] using hb

theorem fillParam_ok {pe : PyDict (PyDict (List F))} {n : ℕ} {p : String} : ∀ {evs : List String} {rows : List (List F)},
    fillParam pe n p evs = .ok rows → rows.length = evs.length ∧ ∀ i (h : i < evs.length), ∃ e col r, pe.get? evs[i] = some e ∧ e.get? p = some col ∧
      rows[i]? = some r ∧ r.length = n ∧ (col.length = n → r = col) := by
  intro evs
  induction evs with
  | nil => intro rows h; cases h; exact ⟨rfl, fun i h => absurd h (by simp)⟩
  | cons ev evs ih =>
    intro rows h
    simp only [fillParam, bind, Except.bind, need'] at h
    split at h
    · cases h
    rename_i e he
    split at h
    · cases h
    rename_i col hcol
    split at h
    · cases h
    rename_i r hr
    split at h
    · cases h
    rename_i rs hrs
    cases h
    have he' : pe.get? ev = some e := by split at he <;> simp_all
    have hcol' : e.get? p = some col := by split at hcol <;> simp_all
    obtain ⟨h1, h2⟩ := ih hrs
    refine ⟨by simp [h1], fun i hi => ?_⟩
    cases i with
    | zero =>
      refine ⟨e, col, r, he', hcol', rfl, ?_, ?_⟩
      · unfold fillRow at hr
        split_ifs at hr with hl
        · cases hr; exact hl
        · split at hr
          · cases hr; simp
          · cases hr
      · intro hl
        unfold fillRow at hr
        rw [if_pos hl] at hr
        cases hr
        rfl
    | succ i =>
      obtain ⟨e', c', r', a1, a2, a3, a4, a5⟩ := h2 i (by simpa using hi)
      exact ⟨e', c', r', a1, a2, by simpa using a3, a4, a5⟩

/-- **C98, partial** (missing: everything before, see `C98_import_fails`).  When the data set-up of the script completes, row `i` of every
parameter (and of the prior) holds the samples of event `i`, for every event whose sample count is that of the first one; the injections
are passed on unchanged and the number of events is the number of names. -/
theorem C98_data_partial {pe : PyDict (PyDict (List F))} {names : List String} {inj : PyDict (List F)} {params : List String}
    {pes : PyDict (List (List F))} {injs : PyDict (List F)} {nobs : ℕ} (h : setupData pe names inj params = .ok (pes, injs, nobs)) :
    nobs = names.length ∧ ∃ n, ∀ p ∈ params ++ ["prior"],
      injs.get? p = inj.get? p ∧ ∃ rows, pes.get? p = some rows ∧ rows.length = nobs ∧
        ∀ i (hi : i < names.length), ∃ e col r, pe.get? names[i] = some e ∧ e.get? p = some col ∧ rows[i]? = some r ∧ r.length = n ∧
          (col.length = n → r = col) := by
  unfold setupData at h
  simp only [bind, Except.bind] at h
  split at h
  · cases h
  rename_i first hfirst
  split at h
  · cases h
  rename_i m1 hm1
  split at h
  · cases h
  rename_i ps hps
  split at h
  · cases h
  rename_i is his
  cases h
  refine ⟨rfl, m1.length, fun p hp => ?_⟩
  obtain ⟨b, hb, hf⟩ := (perParam_ok his).2 p hp
  obtain ⟨rows, hr, hfr⟩ := (perParam_ok hps).2 p hp
  obtain ⟨h1, h2⟩ := fillParam_ok hfr
  refine ⟨?_, rows, hr, h1, h2⟩
  rw [hb]
  unfold need' at hf
  split at hf
  · rename_i hv; cases hf; exact hv.symm
  · cases hf

/-- **C98 is false of a model given as a Python file**, imports aside: the script looks for a data column called `file_path`, so the set-up
raises for every catalog whose events have no such column. -/
theorem C98_python_file_fails (path : String) (pe : PyDict (PyDict (List F))) (names : List String) (inj : PyDict (List F))
    (h : ∀ ev e, pe.get? ev = some e → e.get? "file_path" = none) : ∃ err, setupData pe names inj (ModelConf.pythonFile path).keys = .error err := by
  cases hr : setupData pe names inj (ModelConf.pythonFile path).keys with
  | error e => exact ⟨e, rfl⟩
  | ok r =>
    obtain ⟨pes, injs, nobs⟩ := r
    exfalso
    obtain ⟨-, n, hp⟩ := C98_data_partial hr
    obtain ⟨-, rows, -, -, hi⟩ := hp "file_path" (by simp [ModelConf.keys])
    cases names with
    | nil => unfold setupData at hr; simp [bind, Except.bind] at hr
    | cons ev evs =>
      obtain ⟨e, col, _, h1, h2, _⟩ := hi 0 (by simp)
      rw [h _ _ h1] at h2
      cases h2

/-- **C98 is false of an event with one single sample**: next to a first event with `n ≠ 1` samples it is silently repeated `n` times. -/
theorem C98_single_sample_fails (n : ℕ) (hn : n ≠ 1) (x : F) : fillRow n [x] = .ok (List.replicate n x) := by
  unfold fillRow
  rw [if_neg (by simpa using hn.symm)]

/-- Two events with two samples each. -/
example : ∃ pes injs, setupData
    [("A", [("mass_1", [fin 30, fin 31]), ("prior", [fin 1, fin 2])]), ("B", [("mass_1", [fin 9, fin 8]), ("prior", [fin 3, fin 4])])]
    ["A", "B"] [("mass_1", [fin 5]), ("prior", [fin 6])] ["mass_1"] = .ok (pes, injs, 2) ∧
    pes.get? "mass_1" = some [[fin 30, fin 31], [fin 9, fin 8]] := by
  refine ⟨_, _, rfl, rfl⟩

end GW
