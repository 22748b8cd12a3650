import Verif.Model.Selection
import Mathlib.Analysis.SpecialFunctions.Trigonometric.Deriv
import Mathlib.Analysis.SpecialFunctions.Sqrt
import Mathlib.Algebra.Order.Chebyshev
import Mathlib.LinearAlgebra.Matrix.Determinant.Basic
import Mathlib.MeasureTheory.Integral.IntervalIntegral.Basic

/-!
# C64–C66: found injections and their prior densities
-/

noncomputable section
open Classical
namespace GW
open F

/-! ## specification -/

/-- the O4a selection criterion: the network SNR reaches the threshold, or some pipeline's false-alarm rate is at most
`1/ifar` -/
def passesO4a (cols : PyDict (ℕ → F)) (snrcol : ℕ → F) (ifar snr : ℝ) (i : ℕ) : Prop :=
  F.ge (snrcol i) (fin snr) ∨ ∃ k c, (k, c) ∈ cols ∧ strIn "far" k ∧ F.le (c i) (fin (1 / ifar))

/-- the O3 criterion: some pipeline's inverse false-alarm rate (a dataset with `ifar` in its name, in any case) exceeds the threshold, or the injection is from O1/O2 and its
SNR exceeds the threshold -/
def passesO3 (d : O3Data) (optsnr : ℕ → F) (ifar snr : ℝ) (i : ℕ) : Prop :=
  (∃ k c, (k, c) ∈ d.cols ∧ "ifar".toList <:+: k.toList.map Char.toLower ∧ F.gt (c i) (fin ifar)) ∨ (∃ g, d.name = some g ∧ g i ∧ F.gt (optsnr i) (fin snr))

/-- `t` is the analysis time recorded by the file, in seconds: the attribute `analysis_time_s` if there is one, else
`total_analysis_time`, else `analysis_time` -/
def FileTime (attrs : PyDict F) (t : F) : Prop :=
  attrs.get? "analysis_time_s" = some t ∨ attrs.get? "analysis_time_s" = none ∧
    (attrs.get? "total_analysis_time" = some t ∨ attrs.get? "total_analysis_time" = none ∧ attrs.get? "analysis_time" = some t)

theorem analysisTime_iff (attrs : PyDict F) (t : F) : analysisTime attrs = .ok t ↔ FileTime attrs t := by
  unfold analysisTime FileTime
  cases h1 : attrs.get? "analysis_time_s" <;> cases h2 : attrs.get? "total_analysis_time" <;>
    cases h3 : attrs.get? "analysis_time" <;> simp [h1, h2, h3]

/-- seconds to Julian years -/
theorem toYears_eq (t : F) : toYears t = t / fin 31557600 := by
  unfold toYears
  cases t with
  | fin x =>
    rw [div_fin (by norm_num), div_fin (by norm_num), div_fin (by norm_num), div_fin (by norm_num), div_fin (by norm_num)]
    congr 1
    ring
  | pinf => rw [pinf_div_fin (by norm_num), pinf_div_fin (by norm_num), pinf_div_fin (by norm_num), pinf_div_fin (by norm_num), pinf_div_fin (by norm_num)]
  | ninf => rw [ninf_div_fin (by norm_num), ninf_div_fin (by norm_num), ninf_div_fin (by norm_num), ninf_div_fin (by norm_num), ninf_div_fin (by norm_num)]
  | nan => rfl

/-- the selected injections, in file order -/
def kept (n : ℕ) (P : ℕ → Prop) : List ℕ := (List.range n).filter fun i => decide (P i)

theorem mem_kept {n : ℕ} {P : ℕ → Prop} {i : ℕ} : i ∈ kept n P ↔ i < n ∧ P i := by simp [kept]

theorem mask_eq (n : ℕ) (P : ℕ → Prop) (c : ℕ → F) : mask n P c = (kept n P).map c := rfl

theorem zip2_map (f : F → F → F) (l : List ℕ) (a b : ℕ → F) : zip2 f (l.map a) (l.map b) = l.map fun i => f (a i) (b i) := by
  induction l with
  | nil => rfl
  | cons x l ih => simp only [zip2, List.map_cons, List.zipWith_cons_cons] at ih ⊢; rw [ih]

theorem o4aFound_iff (cols : PyDict (ℕ → F)) (snrcol : ℕ → F) (ifar snr : ℝ) (i : ℕ) :
    o4aFound cols snrcol ifar snr i ↔ passesO4a cols snrcol ifar snr i := by
  unfold o4aFound passesO4a
  suffices h : ∀ (P : ℕ → Prop), (cols.foldl (fun found (p : String × (ℕ → F)) =>
      if strIn "far" p.1 then fun i => found i ∨ F.le (p.2 i) (fin (1 / ifar)) else found) P) i ↔
      P i ∨ ∃ k c, (k, c) ∈ cols ∧ strIn "far" k ∧ F.le (c i) (fin (1 / ifar)) from h _
  induction cols with
  | nil => intro P; simp
  | cons p cols ih =>
    obtain ⟨k, c⟩ := p
    intro P
    rw [List.foldl_cons, ih]
    by_cases h : strIn "far" k
    · rw [if_pos h]
      constructor
      · rintro ((h1 | h1) | ⟨k', c', h1, h2, h3⟩)
        · exact .inl h1
        · exact .inr ⟨k, c, List.mem_cons_self, h, h1⟩
        · exact .inr ⟨k', c', List.mem_cons_of_mem _ h1, h2, h3⟩
      · rintro (h1 | ⟨k', c', h1, h2, h3⟩)
        · exact .inl (.inl h1)
        · rcases List.mem_cons.1 h1 with h1 | h1
          · obtain ⟨rfl, rfl⟩ := Prod.mk.inj h1; exact .inl (.inr h3)
          · exact .inr ⟨k', c', h1, h2, h3⟩
    · rw [if_neg h]
      constructor
      · rintro (h1 | ⟨k', c', h1, h2, h3⟩)
        · exact .inl h1
        · exact .inr ⟨k', c', List.mem_cons_of_mem _ h1, h2, h3⟩
      · rintro (h1 | ⟨k', c', h1, h2, h3⟩)
        · exact .inl h1
        · rcases List.mem_cons.1 h1 with h1 | h1
          · obtain ⟨rfl, rfl⟩ := Prod.mk.inj h1; exact absurd h2 h
          · exact .inr ⟨k', c', h1, h2, h3⟩

theorem o3Found_iff (d : O3Data) (optsnr : ℕ → F) (ifar snr : ℝ) (i : ℕ) :
    o3Found d optsnr ifar snr i ↔ passesO3 d optsnr ifar snr i := by
  unfold o3Found passesO3
  change _ ↔ (∃ k c, (k, c) ∈ d.cols ∧ isIfar k ∧ F.gt (c i) (fin ifar)) ∨ _
  have hn : ∀ P : ℕ → Prop, nameStep d optsnr snr P i ↔
      P i ∨ (∃ g, d.name = some g ∧ g i ∧ F.gt (optsnr i) (fin snr)) := by
    intro P
    unfold nameStep
    cases hd : d.name with
    | none => simp
    | some g => simp
  rw [hn]
  generalize d.cols = cols
  suffices h : ∀ (P : ℕ → Prop), (cols.foldl (fun found (p : String × (ℕ → F)) =>
      nameStep d optsnr snr (if isIfar p.1 then fun i => found i ∨ F.gt (p.2 i) (fin ifar) else found)) P) i
        ∨ (∃ g, d.name = some g ∧ g i ∧ F.gt (optsnr i) (fin snr)) ↔
      P i ∨ (∃ k c, (k, c) ∈ cols ∧ isIfar k ∧ F.gt (c i) (fin ifar)) ∨
        (∃ g, d.name = some g ∧ g i ∧ F.gt (optsnr i) (fin snr)) by
    rw [h]; simp
  induction cols with
  | nil => intro P; simp
  | cons p cols ih =>
    obtain ⟨k, c⟩ := p
    intro P
    rw [List.foldl_cons, ih, hn]
    by_cases h : isIfar k
    · rw [if_pos h]
      constructor
      · rintro (((h1 | h1) | h1) | ⟨k', c', h1, h2, h3⟩ | h1)
        · exact .inl h1
        · exact .inr (.inl ⟨k, c, List.mem_cons_self, h, h1⟩)
        · exact .inr (.inr h1)
        · exact .inr (.inl ⟨k', c', List.mem_cons_of_mem _ h1, h2, h3⟩)
        · exact .inr (.inr h1)
      · rintro (h1 | ⟨k', c', h1, h2, h3⟩ | h1)
        · exact .inl (.inl (.inl h1))
        · rcases List.mem_cons.1 h1 with h1 | h1
          · obtain ⟨rfl, rfl⟩ := Prod.mk.inj h1; exact .inl (.inl (.inr h3))
          · exact .inr (.inl ⟨k', c', h1, h2, h3⟩)
        · exact .inr (.inr h1)
    · rw [if_neg h]
      constructor
      · rintro ((h1 | h1) | ⟨k', c', h1, h2, h3⟩ | h1)
        · exact .inl h1
        · exact .inr (.inr h1)
        · exact .inr (.inl ⟨k', c', List.mem_cons_of_mem _ h1, h2, h3⟩)
        · exact .inr (.inr h1)
      · rintro (h1 | ⟨k', c', h1, h2, h3⟩ | h1)
        · exact .inl (.inl h1)
        · rcases List.mem_cons.1 h1 with h1 | h1
          · obtain ⟨rfl, rfl⟩ := Prod.mk.inj h1; exact absurd h2 h
          · exact .inr (.inl ⟨k', c', h1, h2, h3⟩)
        · exact .inr (.inr h1)

theorem o3Cuts_iff (cols : PyDict (ℕ → F)) (cuts : List (String × ℝ)) (P Q : ℕ → Prop) (h : o3Cuts cols cuts P = .ok Q) (i : ℕ) :
    Q i ↔ P i ∨ ∃ k v c, (k, v) ∈ cuts ∧ cols.get? k = some c ∧ F.ge (c i) (fin v) := by
  induction cuts generalizing P with
  | nil => simp only [o3Cuts, Except.ok.injEq] at h; subst h; simp
  | cons p cuts ih =>
    obtain ⟨k, v⟩ := p
    simp only [o3Cuts] at h
    cases hc : cols.get? k with
    | none => rw [hc] at h; simp at h
    | some c =>
      rw [hc] at h
      rw [ih _ h]
      constructor
      · rintro ((h1 | h1) | ⟨k', v', c', h1, h2, h3⟩)
        · exact .inl h1
        · exact .inr ⟨k, v, c, List.mem_cons_self, hc, h1⟩
        · exact .inr ⟨k', v', c', List.mem_cons_of_mem _ h1, h2, h3⟩
      · rintro (h1 | ⟨k', v', c', h1, h2, h3⟩)
        · exact .inl (.inl h1)
        · rcases List.mem_cons.1 h1 with h1 | h1
          · obtain ⟨rfl, rfl⟩ := Prod.mk.inj h1
            rw [hc] at h2; obtain rfl := Option.some.inj h2
            exact .inl (.inr h3)
          · exact .inr ⟨k', v', c', h1, h2, h3⟩

/-! ## the rows -/

/-- the nine columns of an O4a file that the function reads -/
structure O4aCols (cols : PyDict (ℕ → F)) where
  snr : ℕ → F
  w : ℕ → F
  m1 : ℕ → F
  m2 : ℕ → F
  z : ℕ → F
  lnp : ℕ → F
  s1 : ℕ → F × F × F
  s2 : ℕ → F × F × F
  hsnr : cols.get? "semianalytic_observed_phase_maximized_snr_net" = some snr
  hw : cols.get? "weights" = some w
  hm1 : cols.get? "mass1_source" = some m1
  hm2 : cols.get? "mass2_source" = some m2
  hz : cols.get? "redshift" = some z
  hlnp : cols.get? "lnpdraw_mass1_source_mass2_source_redshift_spin1x_spin1y_spin1z_spin2x_spin2y_spin2z" = some lnp
  hx1 : cols.get? "spin1x" = some fun i => (s1 i).1
  hy1 : cols.get? "spin1y" = some fun i => (s1 i).2.1
  hz1 : cols.get? "spin1z" = some fun i => (s1 i).2.2
  hx2 : cols.get? "spin2x" = some fun i => (s2 i).1
  hy2 : cols.get? "spin2y" = some fun i => (s2 i).2.1
  hz2 : cols.get? "spin2z" = some fun i => (s2 i).2.2

/-- the length of a spin vector -/
def vecLen (v : F × F × F) : F := F.pow (sq v.1 + sq v.2.1 + sq v.2.2) (fin (1 / 2))

theorem spinMag_map (l : List ℕ) (x y z : ℕ → F) :
    spinMag (l.map x) (l.map y) (l.map z) = l.map fun i => vecLen (x i, y i, z i) := by
  simp only [spinMag, List.map_map, zip2_map, vecLen, Function.comp_def]

theorem spinJac_map (l : List ℕ) (a b : ℕ → F) :
    spinJac (l.map a) (l.map b) = l.map fun i => fin (2 * Real.pi) * sq (a i) * (fin (2 * Real.pi) * sq (b i)) := by
  simp only [spinJac, zip2_map]

/-- the density an O4a injection is stored with -/
def priorO4a {cols : PyDict (ℕ → F)} (C : O4aCols cols) (ps : List String) (i : ℕ) : F :=
  let p := F.exp (C.lnp i) / C.w i
  let p := if "mass_ratio" ∈ ps then p * C.m1 i else p
  if "a_1" ∈ ps ∨ "chi_eff" ∈ ps then
    p * (fin (2 * Real.pi) * sq (vecLen (C.s1 i)) * (fin (2 * Real.pi) * sq (vecLen (C.s2 i)))) else p

theorem getO4a_rows {n : ℕ} {cols : PyDict (ℕ → F)} (C : O4aCols cols) {attrs : PyDict F} {t tg : F}
    (ht : FileTime attrs t) {ifar snr : ℝ} (hi : ifar ≠ 0) (ps : List String) :
    ∃ r, getO4a n cols attrs tg ps ifar snr = .ok r ∧ r.total_generated = tg ∧ r.analysis_time = t / fin 31557600 ∧
      let K := kept n (o4aFound cols C.snr ifar snr)
      r.rows = [("mass_1", K.map C.m1), ("mass_2", K.map C.m2), ("mass_ratio", K.map fun i => C.m2 i / C.m1 i),
        ("redshift", K.map C.z), ("prior", K.map (priorO4a C ps))] ++
        (if "a_1" ∈ ps ∨ "chi_eff" ∈ ps then
          [("a_1", K.map fun i => vecLen (C.s1 i)), ("cos_tilt_1", K.map fun i => (C.s1 i).2.2 / vecLen (C.s1 i)),
            ("a_2", K.map fun i => vecLen (C.s2 i)), ("cos_tilt_2", K.map fun i => (C.s2 i).2.2 / vecLen (C.s2 i))] else []) := by
  have hno : ¬ (ifar = 0 ∧ ∃ p ∈ cols, strIn "far" p.1) := fun h => hi h.1
  have ht := (analysisTime_iff _ _).2 ht
  unfold getO4a
  simp only [toYears_eq, ht, field, C.hsnr, C.hw, C.hm1, C.hm2, C.hz, lnpdrawName, C.hlnp, C.hx1, C.hy1, C.hz1, C.hx2, C.hy2, C.hz2,
    if_neg hno, bind, Except.bind, pure, Except.pure]
  by_cases hs : "a_1" ∈ ps ∨ "chi_eff" ∈ ps
  · simp only [if_pos hs]
    refine ⟨_, rfl, rfl, rfl, ?_⟩
    unfold priorO4a
    by_cases hq : "mass_ratio" ∈ ps
    · simp only [if_pos hq, if_pos hs, mask_eq, List.map_map, zip2_map, spinMag_map, spinJac_map, Function.comp_def,
        List.cons_append, List.nil_append]
    · simp only [if_neg hq, if_pos hs, mask_eq, List.map_map, zip2_map, spinMag_map, spinJac_map, Function.comp_def,
        List.cons_append, List.nil_append]
  · simp only [if_neg hs]
    refine ⟨_, rfl, rfl, rfl, ?_⟩
    unfold priorO4a
    by_cases hq : "mass_ratio" ∈ ps
    · simp only [if_pos hq, if_neg hs, mask_eq, List.map_map, zip2_map, spinMag_map, spinJac_map, Function.comp_def,
        List.cons_append, List.nil_append]
    · simp only [if_neg hq, if_neg hs, mask_eq, List.map_map, zip2_map, spinMag_map, spinJac_map, Function.comp_def,
        List.cons_append, List.nil_append]

/-- the datasets of an O3 file that the function reads -/
structure O3Cols (d : O3Data) where
  optsnr : ℕ → F
  m1 : ℕ → F
  m2 : ℕ → F
  z : ℕ → F
  pdf : ℕ → F
  s1 : ℕ → F × F × F
  s2 : ℕ → F × F × F
  hsnr : d.cols.get? "optimal_snr_net" = some optsnr
  hm1 : d.cols.get? "mass1_source" = some m1
  hm2 : d.cols.get? "mass2_source" = some m2
  hz : d.cols.get? "redshift" = some z
  hpdf : d.cols.get? "sampling_pdf" = some pdf
  hx1 : d.cols.get? "spin1x" = some fun i => (s1 i).1
  hy1 : d.cols.get? "spin1y" = some fun i => (s1 i).2.1
  hz1 : d.cols.get? "spin1z" = some fun i => (s1 i).2.2
  hx2 : d.cols.get? "spin2x" = some fun i => (s2 i).1
  hy2 : d.cols.get? "spin2y" = some fun i => (s2 i).2.1
  hz2 : d.cols.get? "spin2z" = some fun i => (s2 i).2.2

/-- the density an O3 injection is stored with -/
def priorO3 {d : O3Data} (C : O3Cols d) (ps : List String) (i : ℕ) : F :=
  let p := if "a_1" ∈ ps ∨ "chi_eff" ∈ ps then
    C.pdf i * (fin (2 * Real.pi) * sq (vecLen (C.s1 i)) * (fin (2 * Real.pi) * sq (vecLen (C.s2 i)))) else C.pdf i
  if "mass_ratio" ∈ ps then p * C.m1 i else p

theorem o3Cuts_total {cols : PyDict (ℕ → F)} {cuts : List (String × ℝ)} (h : ∀ p ∈ cuts, p.1 ∈ cols.keys) (P : ℕ → Prop) :
    ∃ Q, o3Cuts cols cuts P = .ok Q := by
  induction cuts generalizing P with
  | nil => exact ⟨P, rfl⟩
  | cons p cuts ih =>
    obtain ⟨k, v⟩ := p
    obtain ⟨c, hc⟩ := (PyDict.mem_keys_iff cols k).1 (h _ List.mem_cons_self)
    obtain ⟨Q, hQ⟩ := ih (fun p hp => h p (List.mem_cons_of_mem _ hp)) (fun i => P i ∨ F.ge (c i) (fin v))
    exact ⟨Q, by simp only [o3Cuts, hc]; exact hQ⟩

theorem getO3_rows {d : O3Data} (C : O3Cols d) {attrs : PyDict F} {t tg : F} (ht : FileTime attrs t)
    {ifar snr : ℝ} {cuts : Option (List (String × ℝ))} {Q : ℕ → Prop}
    (hQ : o3Cuts d.cols (cuts.getD []) (o3Found d C.optsnr ifar snr) = .ok Q) (ps : List String) :
    ∃ r, getO3 d attrs tg ps ifar snr cuts = .ok r ∧ r.total_generated = tg ∧ r.analysis_time = t / fin 31557600 ∧
      let K := kept d.n Q
      r.rows = [("mass_1", K.map C.m1), ("mass_2", K.map C.m2), ("mass_ratio", K.map fun i => C.m2 i / C.m1 i),
        ("redshift", K.map C.z), ("prior", K.map (priorO3 C ps))] ++
        (if "a_1" ∈ ps ∨ "chi_eff" ∈ ps then
          [("a_1", K.map fun i => vecLen (C.s1 i)), ("cos_tilt_1", K.map fun i => (C.s1 i).2.2 / vecLen (C.s1 i)),
            ("a_2", K.map fun i => vecLen (C.s2 i)), ("cos_tilt_2", K.map fun i => (C.s2 i).2.2 / vecLen (C.s2 i))] else []) := by
  have hsnr : ∃ os, optSnr d = .ok os ∧
      o3Found d os ifar snr = o3Found d C.optsnr ifar snr := by
    cases hd : d.name with
    | some g => exact ⟨C.optsnr, by simp [optSnr, hd, dset, C.hsnr], rfl⟩
    | none =>
      refine ⟨fun _ => fin 0, by simp [optSnr, hd], ?_⟩
      funext i
      rw [eq_iff_iff, o3Found_iff, o3Found_iff]
      simp [passesO3, hd]
  obtain ⟨os, hos, hfo⟩ := hsnr
  have ht := (analysisTime_iff _ _).2 ht
  unfold getO3
  simp only [toYears_eq, hos, ht, dset, getOrZeros, C.hm1, C.hm2, C.hz, C.hpdf, C.hx1, C.hy1, C.hz1, C.hx2, C.hy2, C.hz2,
    bind, Except.bind, pure, Except.pure, hfo, hQ]
  unfold priorO3
  by_cases hs : "a_1" ∈ ps ∨ "chi_eff" ∈ ps
  · simp only [if_pos hs]
    refine ⟨_, rfl, rfl, rfl, ?_⟩
    by_cases hq : "mass_ratio" ∈ ps
    · simp only [if_pos hq, mask_eq, List.map_map, zip2_map, spinMag_map, spinJac_map, Function.comp_def,
        List.cons_append, List.nil_append]
    · simp only [if_neg hq, mask_eq, List.map_map, zip2_map, spinMag_map, spinJac_map, Function.comp_def,
        List.cons_append, List.nil_append]
  · simp only [if_neg hs]
    refine ⟨_, rfl, rfl, rfl, ?_⟩
    by_cases hq : "mass_ratio" ∈ ps
    · simp only [if_pos hq, mask_eq, List.map_map, zip2_map, spinMag_map, spinJac_map, Function.comp_def,
        List.cons_append, List.nil_append]
    · simp only [if_neg hq, mask_eq, List.map_map, zip2_map, spinMag_map, spinJac_map, Function.comp_def,
        List.cons_append, List.nil_append]

/-! ## C64 -/

/-- What it means for a returned array to consist of the injections `K`, in order, with every row aligned. -/
structure RowsOf (rows : PyDict (List F)) (K : List ℕ) (m1 m2 z : ℕ → F) (s1 s2 : ℕ → F × F × F) (spins : Prop) : Prop where
  mass_1 : rows.get? "mass_1" = some (K.map m1)
  mass_2 : rows.get? "mass_2" = some (K.map m2)
  mass_ratio : rows.get? "mass_ratio" = some (K.map fun i => m2 i / m1 i)
  redshift : rows.get? "redshift" = some (K.map z)
  a_1 : spins → rows.get? "a_1" = some (K.map fun i => vecLen (s1 i))
  cos_tilt_1 : spins → rows.get? "cos_tilt_1" = some (K.map fun i => (s1 i).2.2 / vecLen (s1 i))
  a_2 : spins → rows.get? "a_2" = some (K.map fun i => vecLen (s2 i))
  cos_tilt_2 : spins → rows.get? "cos_tilt_2" = some (K.map fun i => (s2 i).2.2 / vecLen (s2 i))
  lengths : ∀ p ∈ rows, p.2.length = K.length

theorem rowsOf_of_eq {rows : PyDict (List F)} {K : List ℕ} {m1 m2 z pr : ℕ → F} {s1 s2 : ℕ → F × F × F} {spins : Prop} [Decidable spins]
    (h : rows = [("mass_1", K.map m1), ("mass_2", K.map m2), ("mass_ratio", K.map fun i => m2 i / m1 i),
        ("redshift", K.map z), ("prior", K.map pr)] ++
        (if spins then
          [("a_1", K.map fun i => vecLen (s1 i)), ("cos_tilt_1", K.map fun i => (s1 i).2.2 / vecLen (s1 i)),
            ("a_2", K.map fun i => vecLen (s2 i)), ("cos_tilt_2", K.map fun i => (s2 i).2.2 / vecLen (s2 i))] else [])) :
    RowsOf rows K m1 m2 z s1 s2 spins ∧ rows.get? "prior" = some (K.map pr) := by
  subst h
  refine ⟨⟨?_, ?_, ?_, ?_, ?_, ?_, ?_, ?_, ?_⟩, ?_⟩
  · simp [PyDict.get?]
  · simp [PyDict.get?]
  · simp [PyDict.get?]
  · simp [PyDict.get?]
  · intro hs; simp [PyDict.get?, hs]
  · intro hs; simp [PyDict.get?, hs]
  · intro hs; simp [PyDict.get?, hs]
  · intro hs; simp [PyDict.get?, hs]
  · intro p hp
    by_cases hs : spins
    · rw [if_pos hs] at hp
      simp only [List.cons_append, List.nil_append, List.mem_cons, List.not_mem_nil, or_false] at hp
      rcases hp with rfl | rfl | rfl | rfl | rfl | rfl | rfl | rfl | rfl <;> simp
    · rw [if_neg hs] at hp
      simp only [List.append_nil, List.mem_cons, List.not_mem_nil, or_false] at hp
      rcases hp with rfl | rfl | rfl | rfl | rfl <;> simp
  · simp [PyDict.get?]

/-- **C64 (O4a).** The returned array consists of exactly the injections whose SNR reaches the threshold or whose
false-alarm rate in some pipeline is at most `1/ifar`, in file order, every row aligned. -/
theorem C64_o4a {n : ℕ} {cols : PyDict (ℕ → F)} (C : O4aCols cols) {attrs : PyDict F} {t tg : F}
    (ht : FileTime attrs t) {ifar snr : ℝ} (hi : ifar ≠ 0) (ps : List String) :
    ∃ r, getO4a n cols attrs tg ps ifar snr = .ok r ∧ r.total_generated = tg ∧ r.analysis_time = t / fin 31557600 ∧
      RowsOf r.rows (kept n (passesO4a cols C.snr ifar snr)) C.m1 C.m2 C.z C.s1 C.s2 ("a_1" ∈ ps ∨ "chi_eff" ∈ ps) := by
  obtain ⟨r, h1, h2, h3, h4⟩ := getO4a_rows C ht hi (n := n) (snr := snr) (tg := tg) ps
  have : o4aFound cols C.snr ifar snr = passesO4a cols C.snr ifar snr := funext fun i => propext (o4aFound_iff _ _ _ _ _)
  rw [this] at h4
  exact ⟨r, h1, h2, h3, (rowsOf_of_eq h4).1⟩

/-- **C64 (O3).** Without additional cuts the returned array consists of exactly the injections whose inverse false-alarm rate
in some pipeline exceeds the threshold or that are O1/O2 injections with SNR above the threshold. -/
theorem C64_o3 {d : O3Data} (C : O3Cols d) {attrs : PyDict F} {t tg : F} (ht : FileTime attrs t)
    (ifar snr : ℝ) (ps : List String) :
    ∃ r, getO3 d attrs tg ps ifar snr none = .ok r ∧ r.total_generated = tg ∧ r.analysis_time = t / fin 31557600 ∧
      RowsOf r.rows (kept d.n (passesO3 d C.optsnr ifar snr)) C.m1 C.m2 C.z C.s1 C.s2 ("a_1" ∈ ps ∨ "chi_eff" ∈ ps) := by
  obtain ⟨r, h1, h2, h3, h4⟩ := getO3_rows C ht (tg := tg) (cuts := none) (Q := o3Found d C.optsnr ifar snr) rfl ps
  have : o3Found d C.optsnr ifar snr = passesO3 d C.optsnr ifar snr := funext fun i => propext (o3Found_iff _ _ _ _ _)
  rw [this] at h4
  exact ⟨r, h1, h2, h3, (rowsOf_of_eq h4).1⟩

/-- **C64 (time).** A file with none of the three attributes is refused. -/
theorem C64_no_time {n : ℕ} {cols : PyDict (ℕ → F)} {attrs : PyDict F} {tg : F} {ps : List String} {ifar snr : ℝ}
    (h : ∀ k ∈ ["analysis_time", "total_analysis_time", "analysis_time_s"], attrs.get? k = none) :
    getO4a n cols attrs tg ps ifar snr = .error .exception ∧ ∀ d cuts r, getO3 d attrs tg ps ifar snr cuts ≠ .ok r := by
  have ha : analysisTime attrs = .error .exception := by
    simp only [List.mem_cons, List.not_mem_nil, or_false, forall_eq_or_imp, forall_eq] at h
    simp [analysisTime, h.1, h.2.1, h.2.2]
  constructor
  · unfold getO4a
    simp only [ha, bind, Except.bind]
  · intro d cuts r hr
    unfold getO3 at hr
    simp only [ha, bind, Except.bind] at hr
    repeat' split at hr
    all_goals cases hr

theorem kept_sublist {n : ℕ} {P Q : ℕ → Prop} (h : ∀ i, P i → Q i) : List.Sublist (kept n P) (kept n Q) :=
  List.monotone_filter_right _ fun i => by simpa using h i

theorem F.le_trans_fin {a : F} {x y : ℝ} (h : F.le a (fin x)) (hxy : x ≤ y) : F.le a (fin y) := by
  cases a <;> simp_all
  linarith
theorem F.ge_mono_fin {a : F} {x y : ℝ} (h : F.ge a (fin x)) (hxy : y ≤ x) : F.ge a (fin y) := by
  cases a <;> simp_all [F.ge]
  linarith
theorem F.gt_mono_fin {a : F} {x y : ℝ} (h : F.gt a (fin x)) (hxy : y ≤ x) : F.gt a (fin y) := by
  cases a <;> simp_all [F.gt]
  linarith

/-- **C64.** Raising thresholds can only remove injections. -/
theorem C64_monotone {n : ℕ} {cols : PyDict (ℕ → F)} {snrcol : ℕ → F} {d : O3Data} {ifar ifar' snr snr' : ℝ}
    (hi : 0 < ifar) (hii : ifar ≤ ifar') (hss : snr ≤ snr') :
    List.Sublist (kept n (passesO4a cols snrcol ifar' snr')) (kept n (passesO4a cols snrcol ifar snr)) ∧
    List.Sublist (kept n (passesO3 d snrcol ifar' snr')) (kept n (passesO3 d snrcol ifar snr)) := by
  constructor
  · refine kept_sublist fun i => ?_
    rintro (h | ⟨k, c, h1, h2, h3⟩)
    · exact .inl (F.ge_mono_fin h hss)
    · exact .inr ⟨k, c, h1, h2, F.le_trans_fin h3 (one_div_le_one_div_of_le hi hii)⟩
  · refine kept_sublist fun i => ?_
    rintro (⟨k, c, h1, h2, h3⟩ | ⟨g, h1, h2, h3⟩)
    · exact .inl ⟨k, c, h1, h2, F.gt_mono_fin h3 hii⟩
    · exact .inr ⟨g, h1, h2, F.gt_mono_fin h3 hss⟩

/-! ## C65 -/

/-- **C65 is false of the code.** Additional cuts never remove an injection, and every injection that fails all detection
criteria but satisfies one of the "cuts" is added. -/
theorem C65_cuts_fails {d : O3Data} (C : O3Cols d) {attrs : PyDict F} {t tg : F} (ht : FileTime attrs t)
    {ifar snr : ℝ} {cuts : List (String × ℝ)} (hc : ∀ p ∈ cuts, p.1 ∈ d.cols.keys) (ps : List String) :
    ∃ r K, getO3 d attrs tg ps ifar snr (some cuts) = .ok r ∧
      RowsOf r.rows K C.m1 C.m2 C.z C.s1 C.s2 ("a_1" ∈ ps ∨ "chi_eff" ∈ ps) ∧
      List.Sublist (kept d.n (passesO3 d C.optsnr ifar snr)) K ∧
      ∀ i < d.n, ¬ passesO3 d C.optsnr ifar snr i → (∃ k v c, (k, v) ∈ cuts ∧ d.cols.get? k = some c ∧ F.ge (c i) (fin v)) →
        i ∈ K := by
  obtain ⟨Q, hQ⟩ := o3Cuts_total hc (o3Found d C.optsnr ifar snr)
  obtain ⟨r, h1, h2, _, h4⟩ := getO3_rows C ht (tg := tg) (cuts := some cuts) (Q := Q) hQ ps
  have hiff := o3Cuts_iff _ _ _ _ hQ
  refine ⟨r, _, h1, (rowsOf_of_eq h4).1, kept_sublist fun i hi => (hiff i).2 (.inl ((o3Found_iff _ _ _ _ _).2 hi)), ?_⟩
  intro i hi _ hcut
  exact mem_kept.2 ⟨hi, (hiff i).2 (.inr hcut)⟩

/-! ## C66 -/

theorem vecLen_fin (x y z : ℝ) : vecLen (fin x, fin y, fin z) = fin (√(x ^ 2 + y ^ 2 + z ^ 2)) := by
  unfold vecLen
  simp only [sq_fin, add_fin]
  rw [pow_half_fin (by nlinarith [mul_self_nonneg x, mul_self_nonneg y, mul_self_nonneg z])]
  congr 2; ring

/-- **C66 (O4a).** For finite columns, the stored prior is the draw density divided by the weight, times `m1` when the mass
ratio is used, times `2π a²` for each spin when spin magnitudes are used. -/
theorem C66_prior_o4a {n : ℕ} {cols : PyDict (ℕ → F)} (C : O4aCols cols) {attrs : PyDict F} {t tg : F}
    (ht : FileTime attrs t) {ifar snr : ℝ} (hi : ifar ≠ 0) (ps : List String)
    {lnp w m1 : ℕ → ℝ} {s1 s2 : ℕ → ℝ × ℝ × ℝ} (hw : ∀ i, w i ≠ 0)
    (e1 : ∀ i, C.lnp i = fin (lnp i)) (e2 : ∀ i, C.w i = fin (w i)) (e3 : ∀ i, C.m1 i = fin (m1 i))
    (e4 : ∀ i, C.s1 i = (fin (s1 i).1, fin (s1 i).2.1, fin (s1 i).2.2))
    (e5 : ∀ i, C.s2 i = (fin (s2 i).1, fin (s2 i).2.1, fin (s2 i).2.2)) :
    ∃ r, getO4a n cols attrs tg ps ifar snr = .ok r ∧
      r.rows.get? "prior" = some ((kept n (passesO4a cols C.snr ifar snr)).map fun i =>
        fin (Real.exp (lnp i) / w i * (if "mass_ratio" ∈ ps then m1 i else 1) *
          (if "a_1" ∈ ps ∨ "chi_eff" ∈ ps then
            (2 * Real.pi * ((s1 i).1 ^ 2 + (s1 i).2.1 ^ 2 + (s1 i).2.2 ^ 2)) *
            (2 * Real.pi * ((s2 i).1 ^ 2 + (s2 i).2.1 ^ 2 + (s2 i).2.2 ^ 2)) else 1))) := by
  obtain ⟨r, h1, h2, _, h4⟩ := getO4a_rows C ht hi (n := n) (snr := snr) (tg := tg) ps
  have : o4aFound cols C.snr ifar snr = passesO4a cols C.snr ifar snr := funext fun i => propext (o4aFound_iff _ _ _ _ _)
  rw [this] at h4
  refine ⟨r, h1, ?_⟩
  rw [(rowsOf_of_eq h4).2]
  congr 2
  funext i
  have hsq : ∀ v : ℝ × ℝ × ℝ, √(v.1 ^ 2 + v.2.1 ^ 2 + v.2.2 ^ 2) * √(v.1 ^ 2 + v.2.1 ^ 2 + v.2.2 ^ 2)
      = v.1 ^ 2 + v.2.1 ^ 2 + v.2.2 ^ 2 := fun v => Real.mul_self_sqrt (by positivity)
  unfold priorO4a
  rw [e1, e2, e3, e4, e5, vecLen_fin, vecLen_fin]
  simp only [exp_fin, div_fin (hw i), sq_fin, mul_fin, hsq]
  split_ifs <;> simp only [mul_fin, fin_inj] <;> ring

theorem priorO3_val {d : O3Data} (C : O3Cols d) (ps : List String) {pdf m1 : ℕ → ℝ} {s1 s2 : ℕ → ℝ × ℝ × ℝ}
    (e1 : ∀ i, C.pdf i = fin (pdf i)) (e3 : ∀ i, C.m1 i = fin (m1 i))
    (e4 : ∀ i, C.s1 i = (fin (s1 i).1, fin (s1 i).2.1, fin (s1 i).2.2))
    (e5 : ∀ i, C.s2 i = (fin (s2 i).1, fin (s2 i).2.1, fin (s2 i).2.2)) (i : ℕ) :
    priorO3 C ps i = fin (pdf i * (if "mass_ratio" ∈ ps then m1 i else 1) *
          (if "a_1" ∈ ps ∨ "chi_eff" ∈ ps then
            (2 * Real.pi * ((s1 i).1 ^ 2 + (s1 i).2.1 ^ 2 + (s1 i).2.2 ^ 2)) *
            (2 * Real.pi * ((s2 i).1 ^ 2 + (s2 i).2.1 ^ 2 + (s2 i).2.2 ^ 2)) else 1)) := by
  have hsq : ∀ v : ℝ × ℝ × ℝ, √(v.1 ^ 2 + v.2.1 ^ 2 + v.2.2 ^ 2) * √(v.1 ^ 2 + v.2.1 ^ 2 + v.2.2 ^ 2)
      = v.1 ^ 2 + v.2.1 ^ 2 + v.2.2 ^ 2 := fun v => Real.mul_self_sqrt (by positivity)
  unfold priorO3
  rw [e1, e3, e4, e5, vecLen_fin, vecLen_fin]
  simp only [sq_fin, mul_fin, hsq]
  split_ifs <;> simp only [mul_fin, fin_inj] <;> ring

/-- **C66 (O3).** The same for O3 files. -/
theorem C66_prior_o3 {d : O3Data} (C : O3Cols d) {attrs : PyDict F} {t tg : F} (ht : FileTime attrs t)
    (ifar snr : ℝ) (ps : List String) {pdf m1 : ℕ → ℝ} {s1 s2 : ℕ → ℝ × ℝ × ℝ}
    (e1 : ∀ i, C.pdf i = fin (pdf i)) (e3 : ∀ i, C.m1 i = fin (m1 i))
    (e4 : ∀ i, C.s1 i = (fin (s1 i).1, fin (s1 i).2.1, fin (s1 i).2.2))
    (e5 : ∀ i, C.s2 i = (fin (s2 i).1, fin (s2 i).2.1, fin (s2 i).2.2)) :
    ∃ r, getO3 d attrs tg ps ifar snr none = .ok r ∧
      r.rows.get? "prior" = some ((kept d.n (passesO3 d C.optsnr ifar snr)).map fun i =>
        fin (pdf i * (if "mass_ratio" ∈ ps then m1 i else 1) *
          (if "a_1" ∈ ps ∨ "chi_eff" ∈ ps then
            (2 * Real.pi * ((s1 i).1 ^ 2 + (s1 i).2.1 ^ 2 + (s1 i).2.2 ^ 2)) *
            (2 * Real.pi * ((s2 i).1 ^ 2 + (s2 i).2.1 ^ 2 + (s2 i).2.2 ^ 2)) else 1))) := by
  obtain ⟨r, h1, h2, _, h4⟩ := getO3_rows C ht (tg := tg) (cuts := none) (Q := o3Found d C.optsnr ifar snr) rfl ps
  have : o3Found d C.optsnr ifar snr = passesO3 d C.optsnr ifar snr := funext fun i => propext (o3Found_iff _ _ _ _ _)
  rw [this] at h4
  refine ⟨r, h1, ?_⟩
  rw [(rowsOf_of_eq h4).2]
  congr 2
  funext i
  exact priorO3_val C ps e1 e3 e4 e5 i

/-- **C66.** Those factors are the exact Jacobians.  The spin vector with magnitude `a`, cosine `c ∈ (-1, 1)` and azimuth `φ` is
`(a√(1-c²) cos φ, a√(1-c²) sin φ, a c)`: the listed partial derivatives are its Jacobian matrix, whose determinant is
`-a²`, and integrating `a²` over the azimuth gives `2π a²`.  For the masses, `m2 = q m1` has derivative `m1` in `q`. -/
theorem C66_jacobian {a c φ : ℝ} (hc : -1 < c) (hc' : c < 1) :
    let s := √(1 - c ^ 2)
    let J : Matrix (Fin 3) (Fin 3) ℝ :=
      !![s * Real.cos φ, -(a * c / s * Real.cos φ), -(a * s * Real.sin φ);
         s * Real.sin φ, -(a * c / s * Real.sin φ), a * s * Real.cos φ;
         c, a, 0]
    (HasDerivAt (fun a => a * √(1 - c ^ 2) * Real.cos φ) (J 0 0) a ∧ HasDerivAt (fun c => a * √(1 - c ^ 2) * Real.cos φ) (J 0 1) c ∧
      HasDerivAt (fun φ => a * √(1 - c ^ 2) * Real.cos φ) (J 0 2) φ) ∧
    (HasDerivAt (fun a => a * √(1 - c ^ 2) * Real.sin φ) (J 1 0) a ∧ HasDerivAt (fun c => a * √(1 - c ^ 2) * Real.sin φ) (J 1 1) c ∧
      HasDerivAt (fun φ => a * √(1 - c ^ 2) * Real.sin φ) (J 1 2) φ) ∧
    (HasDerivAt (fun a => a * c) (J 2 0) a ∧ HasDerivAt (fun c => a * c) (J 2 1) c ∧ HasDerivAt (fun _ : ℝ => a * c) (J 2 2) φ) ∧
    |J.det| = a ^ 2 ∧ (∫ _ in (0 : ℝ)..(2 * Real.pi), |J.det|) = 2 * Real.pi * a ^ 2 ∧
    ∀ m1 q : ℝ, HasDerivAt (fun q => q * m1) m1 q := by
  intro s J
  have hpos : 0 < 1 - c ^ 2 := by nlinarith
  have hs : 0 < s := Real.sqrt_pos.2 hpos
  have hss : s ^ 2 = 1 - c ^ 2 := Real.sq_sqrt hpos.le
  have hds : HasDerivAt (fun c : ℝ => √(1 - c ^ 2)) (-(c / s)) c := by
    have h1 : HasDerivAt (fun y : ℝ => 1 - y ^ 2) (-(2 * c)) c := by
      have := (hasDerivAt_pow 2 c).const_sub 1; simpa using this
    refine (h1.sqrt hpos.ne').congr_deriv ?_
    change -(2 * c) / (2 * s) = -(c / s)
    field_simp
  have hdet : J.det = -a ^ 2 := by
    rw [Matrix.det_fin_three]
    simp only [J, Matrix.of_apply, Matrix.cons_val', Matrix.cons_val_zero, Matrix.cons_val_one, Matrix.cons_val, Matrix.empty_val',
      Matrix.cons_val_fin_one]
    have h1 := Real.sin_sq_add_cos_sq φ
    field_simp
    have : s ^ 2 * (Real.sin φ ^ 2 + Real.cos φ ^ 2) + c ^ 2 * (Real.sin φ ^ 2 + Real.cos φ ^ 2) = 1 := by
      rw [h1, hss]; ring
    linear_combination (-a ^ 2) * this
  have habs : |J.det| = a ^ 2 := by rw [hdet, abs_neg, abs_of_nonneg (sq_nonneg a)]
  refine ⟨⟨?_, ?_, ?_⟩, ⟨?_, ?_, ?_⟩, ⟨?_, ?_, ?_⟩, habs, ?_, ?_⟩
  · have := ((hasDerivAt_id a).mul_const s).mul_const (Real.cos φ)
    exact this.congr_deriv (by simp [J])
  · have := (hds.const_mul a).mul_const (Real.cos φ)
    exact this.congr_deriv (by simp only [J, Matrix.of_apply, Matrix.cons_val', Matrix.cons_val_zero, Matrix.cons_val_one]; ring)
  · have := (Real.hasDerivAt_cos φ).const_mul (a * s)
    exact this.congr_deriv (by simp [J])
  · have := ((hasDerivAt_id a).mul_const s).mul_const (Real.sin φ)
    exact this.congr_deriv (by simp [J])
  · have := (hds.const_mul a).mul_const (Real.sin φ)
    exact this.congr_deriv (by simp only [J, Matrix.of_apply, Matrix.cons_val', Matrix.cons_val_zero, Matrix.cons_val_one]; ring)
  · have := (Real.hasDerivAt_sin φ).const_mul (a * s)
    exact this.congr_deriv (by simp [J])
  · exact ((hasDerivAt_id a).mul_const c).congr_deriv (by simp [J])
  · exact ((hasDerivAt_id c).const_mul a).congr_deriv (by simp [J])
  · exact (hasDerivAt_const φ (a * c)).congr_deriv (by simp [J])
  · rw [habs]; simp
  · intro m1 q
    exact ((hasDerivAt_id q).mul_const m1).congr_deriv (by simp)

/-! ## C67 -/

section resampling
variable {n : ℕ} {model prior : Fin n → ℝ}

theorem rsWts_pos (hm : ∀ i, 0 < model i) (hp : ∀ i, 0 < prior i) (i : Fin n) : 0 < rsWts model prior i :=
  div_pos (hm i) (hp i)

/-- independent draws: the expectation of a function of one drawn index -/
theorem iid_expect {N n : ℕ} (p : Fin n → ℝ) (hp : ∑ i, p i = 1) (g : Fin n → ℝ) (k₀ : Fin N) :
    ∑ x : Fin N → Fin n, (∏ k, p (x k)) * g (x k₀) = ∑ i, p i * g i := by
  have h := Finset.prod_univ_sum (fun _ : Fin N => (Finset.univ : Finset (Fin n)))
    (fun k i => p i * if k = k₀ then g i else 1)
  rw [Fintype.piFinset_univ] at h
  have h2 : ∀ x : Fin N → Fin n, ∏ k, (p (x k) * if k = k₀ then g (x k) else 1) = (∏ k, p (x k)) * g (x k₀) := by
    intro x
    rw [Finset.prod_mul_distrib]
    congr 1
    rw [Finset.prod_ite_eq' Finset.univ k₀ (fun k => g (x k))]
    simp
  simp only [h2] at h
  rw [← h, Finset.prod_eq_single k₀]
  · simp
  · intro k _ hk; simp [hk, hp]
  · intro hk; exact absurd (Finset.mem_univ _) hk

/-- **C67.** The resampling probabilities are a probability distribution, and at least one and at most as many injections are
drawn as there are found injections. -/
theorem C67_draws [NeZero n] (hm : ∀ i, 0 < model i) (hp : ∀ i, 0 < prior i) :
    (∀ i, 0 < rsP model prior i) ∧ ∑ i, rsP model prior i = 1 ∧ 1 ≤ rsN model prior ∧ rsN model prior ≤ n ∧
    (∀ i, rsP model prior i = (model i / prior i) / ∑ j, model j / prior j) ∧
    rsN model prior = ⌊(∑ j, model j / prior j) ^ 2 / ∑ j, (model j / prior j) ^ 2⌋₊ := by
  have hw := rsWts_pos hm hp
  have hne : (Finset.univ : Finset (Fin n)).Nonempty := ⟨0, Finset.mem_univ _⟩
  have hS : 0 < ∑ j, rsWts model prior j := Finset.sum_pos (fun i _ => hw i) hne
  have hQ : 0 < ∑ j, rsWts model prior j * rsWts model prior j := Finset.sum_pos (fun i _ => mul_pos (hw i) (hw i)) hne
  refine ⟨fun i => div_pos (hw i) hS, ?_, ?_, ?_, fun i => rfl, by simp only [rsN, rsWts, _root_.sq]⟩
  · unfold rsP
    rw [← Finset.sum_div, div_self hS.ne']
  · unfold rsN
    rw [Nat.one_le_floor_iff, le_div_iff₀ hQ, one_mul, _root_.sq, Finset.sum_mul]
    refine Finset.sum_le_sum fun i _ => ?_
    exact mul_le_mul_of_nonneg_left (Finset.single_le_sum (fun j _ => (hw j).le) (Finset.mem_univ i)) (hw i).le
  · unfold rsN
    have : (∑ j, rsWts model prior j) ^ 2 / (∑ j, rsWts model prior j * rsWts model prior j) ≤ n := by
      rw [div_le_iff₀ hQ]
      have := sq_sum_le_card_mul_sum_sq (s := (Finset.univ : Finset (Fin n))) (f := rsWts model prior)
      simpa [_root_.sq] using this
    exact_mod_cast (Nat.floor_le (by positivity)).trans this

/-- **C67.** Every new column is one of the original injections, its stored prior is the model density divided by the estimated
detectable fraction, and — averaged over the independent draws — the Monte Carlo estimate of any function's expectation
from the new table equals the estimate from the old one. -/
theorem C67_unbiased [NeZero n] (hm : ∀ i, 0 < model i) (hp : ∀ i, 0 < prior i) {Ndraw : ℝ} (hN : 0 < Ndraw) (f : Fin n → ℝ) :
    (∀ idxs k, (resample model prior Ndraw idxs).prior k
      = model ((resample model prior Ndraw idxs).src k) / ((1 / Ndraw) * ∑ i, model i / prior i)) ∧
    ∑ idxs : Fin (rsN model prior) → Fin n, (∏ k, rsP model prior (idxs k)) *
        (1 / ((resample model prior Ndraw idxs).N : ℝ) * ∑ k, f ((resample model prior Ndraw idxs).src k) / (resample model prior Ndraw idxs).prior k)
      = 1 / Ndraw * ∑ i, f i / prior i := by
  obtain ⟨_, hsum, hN1, _, _, _⟩ := C67_draws hm hp
  have hw := rsWts_pos hm hp
  have hne : (Finset.univ : Finset (Fin n)).Nonempty := ⟨0, Finset.mem_univ _⟩
  have hS : 0 < ∑ j, rsWts model prior j := Finset.sum_pos (fun i _ => hw i) hne
  have hNN : ((rsN model prior : ℕ) : ℝ) ≠ 0 := by exact_mod_cast (Nat.one_le_iff_ne_zero.1 hN1)
  refine ⟨fun idxs k => ?_, ?_⟩
  · simp only [resample, rsNorm, rsWts]
    congr 1; ring
  · change ∑ idxs : Fin (rsN model prior) → Fin n, (∏ k, rsP model prior (idxs k)) *
        (1 / ((rsN model prior : ℕ) : ℝ) * ∑ k : Fin (rsN model prior), f (idxs k) / (model (idxs k) / rsNorm model prior Ndraw))
      = 1 / Ndraw * ∑ i, f i / prior i
    have : ∀ idxs : Fin (rsN model prior) → Fin n, (∏ k, rsP model prior (idxs k)) *
        (1 / ((rsN model prior : ℕ) : ℝ) * ∑ k, f (idxs k) / (model (idxs k) / rsNorm model prior Ndraw))
        = 1 / ((rsN model prior : ℕ) : ℝ) * ∑ k, (∏ k, rsP model prior (idxs k)) * (f (idxs k) / (model (idxs k) / rsNorm model prior Ndraw)) := by
      intro idxs
      rw [← Finset.mul_sum]; ring
    simp only [this]
    rw [← Finset.mul_sum, Finset.sum_comm]
    have h2 : ∀ k : Fin (rsN model prior), ∑ idxs : Fin (rsN model prior) → Fin n,
        (∏ k, rsP model prior (idxs k)) * (f (idxs k) / (model (idxs k) / rsNorm model prior Ndraw))
        = 1 / Ndraw * ∑ i, f i / prior i := by
      intro k
      rw [iid_expect (rsP model prior) hsum (fun i => f i / (model i / rsNorm model prior Ndraw)) k, Finset.mul_sum]
      refine Finset.sum_congr rfl fun i _ => ?_
      simp only [rsP, rsNorm]
      have h3 := (hm i).ne'
      have h4 := (hp i).ne'
      rw [show rsWts model prior i = model i / prior i from rfl]
      field_simp
    simp only [h2, Finset.sum_const, Finset.card_univ, Fintype.card_fin, nsmul_eq_mul]
    field_simp

/-- **C67 (effective number).** The third return value is `ρ̂² / Var(ρ̂)`: `ρ̂` is the estimated detectable fraction, the mean of the weights
over all `Ndraw` generated injections (those not found have weight 0), and the variance of that mean is `1/Ndraw²` times the sum of squared
deviations from it over all generated injections. -/
theorem C67_neff {Ndraw : ℕ} (hN : 0 < Ndraw) (idxs : Fin (rsN model prior) → Fin n) :
    let ρ := (∑ i, model i / prior i) / (Ndraw : ℝ)
    (resample model prior Ndraw idxs).neff =
      ρ ^ 2 / ((∑ i, (model i / prior i - ρ) ^ 2 + ((Ndraw : ℝ) - n) * (0 - ρ) ^ 2) / (Ndraw : ℝ) ^ 2) := by
  intro ρ
  have hn : (Ndraw : ℝ) ≠ 0 := by positivity
  have hρ : rsNorm model prior Ndraw = ρ := rfl
  have hS : ∑ i, model i / prior i = ρ * Ndraw := by simp only [ρ]; field_simp
  have hQ : ∑ i, (model i / prior i - ρ) ^ 2 =
      ∑ i, rsWts model prior i * rsWts model prior i - 2 * ρ * (ρ * Ndraw) + n * ρ ^ 2 := by
    have : ∀ i, (model i / prior i - ρ) ^ 2 = rsWts model prior i * rsWts model prior i - 2 * ρ * (model i / prior i) + ρ ^ 2 := by
      intro i
      rw [show rsWts model prior i = model i / prior i from rfl]
      ring
    simp only [this, Finset.sum_add_distrib, Finset.sum_sub_distrib, ← Finset.mul_sum, hS, Finset.sum_const, Finset.card_univ,
      Fintype.card_fin, nsmul_eq_mul]
  simp only [resample, hρ, hQ]
  congr 1
  · ring
  · field_simp
    ring

end resampling

/-! ## C81 -/

theorem nFound_lt {n : ℕ} {P : ℕ → Prop} {i : ℕ} (hi : i < n) (h : ¬ P i) : nFound n P < n := by
  unfold nFound
  have h1 := List.length_filter_lt_length_iff_exists (l := List.range n) (p := fun i => decide (P i))
  simp only [List.length_range, List.mem_range, decide_eq_true_eq] at h1
  exact h1.2 ⟨i, hi, h⟩

/-- **C81 is false of the code.** An O3 file without an in-plane spin dataset, for which the code substitutes zeros, cannot be
read with spins unless every injection in it was found: the substitute has the length of the found set and is then indexed
with the full-length mask. -/
theorem C81_inplane_fails {d : O3Data} {attrs : PyDict F} {t tg : F} {ifar snr : ℝ} {ps : List String}
    {m1 m2 z pdf optsnr : ℕ → F} (hm1 : d.cols.get? "mass1_source" = some m1) (hm2 : d.cols.get? "mass2_source" = some m2)
    (hz : d.cols.get? "redshift" = some z) (hpdf : d.cols.get? "sampling_pdf" = some pdf)
    (hsnr : d.cols.get? "optimal_snr_net" = some optsnr) (ht : FileTime attrs t)
    (hps : "a_1" ∈ ps ∨ "chi_eff" ∈ ps) (hx : d.cols.get? "spin1x" = none)
    {i : ℕ} (hi : i < d.n) (hmiss : ¬ passesO3 d optsnr ifar snr i) :
    getO3 d attrs tg ps ifar snr none = .error .indexError := by
  have hos : ∃ os, optSnr d = .ok os ∧ o3Found d os ifar snr = o3Found d optsnr ifar snr := by
    cases hd : d.name with
    | some g => exact ⟨optsnr, by simp [optSnr, hd, dset, hsnr], rfl⟩
    | none =>
      refine ⟨fun _ => fin 0, by simp [optSnr, hd], ?_⟩
      funext i
      rw [eq_iff_iff, o3Found_iff, o3Found_iff]
      simp [passesO3, hd]
  obtain ⟨os, hos, hfo⟩ := hos
  have hn := nFound_lt hi (mt (o3Found_iff d optsnr ifar snr i).1 hmiss)
  have ht := (analysisTime_iff _ _).2 ht
  unfold getO3
  simp only [toYears_eq, hos, ht, dset, getOrZeros, hm1, hm2, hz, hpdf, hx, bind, Except.bind, o3Cuts, Option.getD, hfo, if_pos hps,
    if_neg hn.ne]

/-! ## C82 -/

/-- **C82 is false of the code.** An injection with an exactly vanishing primary spin vector is returned with an undefined tilt
and prior density zero. -/
theorem C82_zero_spin_fails {n : ℕ} {cols : PyDict (ℕ → F)} (C : O4aCols cols) {attrs : PyDict F} {t tg : F}
    (ht : FileTime attrs t) {ifar snr : ℝ} (hi : ifar ≠ 0) {ps : List String} (hps : "a_1" ∈ ps ∨ "chi_eff" ∈ ps)
    {i : ℕ} (hin : i < n) (hpass : passesO4a cols C.snr ifar snr i) {lnp w m1 x y z : ℝ} (hw : w ≠ 0)
    (e1 : C.lnp i = fin lnp) (e2 : C.w i = fin w) (e3 : C.m1 i = fin m1) (e4 : C.s1 i = (fin 0, fin 0, fin 0))
    (e5 : C.s2 i = (fin x, fin y, fin z)) :
    ∃ (r : InjArray) (k : ℕ) (ct pr : List F), getO4a n cols attrs tg ps ifar snr = .ok r ∧ (kept n (passesO4a cols C.snr ifar snr))[k]? = some i ∧
      r.rows.get? "cos_tilt_1" = some ct ∧ ct[k]? = some nan ∧ r.rows.get? "prior" = some pr ∧ pr[k]? = some (fin 0) := by
  obtain ⟨r, h1, h2, _, h4⟩ := getO4a_rows C ht hi (n := n) (snr := snr) (tg := tg) ps
  have : o4aFound cols C.snr ifar snr = passesO4a cols C.snr ifar snr := funext fun i => propext (o4aFound_iff _ _ _ _ _)
  rw [this] at h4
  obtain ⟨R, hp⟩ := rowsOf_of_eq h4
  obtain ⟨k, hk⟩ := List.mem_iff_getElem?.1 (mem_kept.2 ⟨hin, hpass⟩)
  refine ⟨r, k, _, _, h1, hk, R.cos_tilt_1 hps, ?_, hp, ?_⟩
  · rw [List.getElem?_map, hk, Option.map_some, e4, vecLen_fin]
    norm_num [div_fin_zero]
  · rw [List.getElem?_map, hk, Option.map_some]
    unfold priorO4a
    rw [e1, e2, e3, e4, e5, vecLen_fin, vecLen_fin]
    simp only [exp_fin, div_fin hw, sq_fin, mul_fin, if_pos hps]
    split_ifs <;> simp

/-! ## non-vacuity -/

/-- an O4a table with two injections, of which the second is found -/
def demoO4a : PyDict (ℕ → F) :=
  [("semianalytic_observed_phase_maximized_snr_net", fun i => fin i), ("weights", fun _ => fin 1), ("mass1_source", fun _ => fin 30),
    ("mass2_source", fun _ => fin 20), ("redshift", fun _ => fin 0.1), ("gstlal_far", fun i => fin (10 * (1 - i))),
    ("lnpdraw_mass1_source_mass2_source_redshift_spin1x_spin1y_spin1z_spin2x_spin2y_spin2z", fun _ => fin (-3)),
    ("spin1x", fun _ => fin 0), ("spin1y", fun _ => fin 0), ("spin1z", fun _ => fin 0),
    ("spin2x", fun _ => fin 0.1), ("spin2y", fun _ => fin 0.2), ("spin2z", fun _ => fin 0.3)]

def demoO4aCols : O4aCols demoO4a where
  snr := fun i => fin i
  w := fun _ => fin 1
  m1 := fun _ => fin 30
  m2 := fun _ => fin 20
  z := fun _ => fin 0.1
  lnp := fun _ => fin (-3)
  s1 := fun _ => (fin 0, fin 0, fin 0)
  s2 := fun _ => (fin 0.1, fin 0.2, fin 0.3)
  hsnr := by simp [demoO4a, PyDict.get?]
  hw := by simp [demoO4a, PyDict.get?]
  hm1 := by simp [demoO4a, PyDict.get?]
  hm2 := by simp [demoO4a, PyDict.get?]
  hz := by simp [demoO4a, PyDict.get?]
  hlnp := by simp [demoO4a, PyDict.get?]
  hx1 := by simp [demoO4a, PyDict.get?]
  hy1 := by simp [demoO4a, PyDict.get?]
  hz1 := by simp [demoO4a, PyDict.get?]
  hx2 := by simp [demoO4a, PyDict.get?]
  hy2 := by simp [demoO4a, PyDict.get?]
  hz2 := by simp [demoO4a, PyDict.get?]

/-- the seconds attribute wins over the others -/
example : FileTime [("analysis_time", fin 1), ("analysis_time_s", fin 2)] (fin 2) := by simp [FileTime, PyDict.get?]

example : passesO4a demoO4a demoO4aCols.snr 1 10 1 := by
  refine .inr ⟨"gstlal_far", fun i => fin (10 * (1 - i)), by simp [demoO4a], ?_, ?_⟩
  · exact ⟨"gstlal_".toList, [], by decide⟩
  · simp

/-- an O3 table with in-plane spins; no injection exceeds an inverse false-alarm rate of 5 -/
def demoO3 : O3Data where
  n := 3
  cols := [("mass1_source", fun _ => fin 3), ("mass2_source", fun _ => fin 2), ("redshift", fun _ => fin 0.1),
    ("optimal_snr_net", fun i => fin i), ("sampling_pdf", fun _ => fin 2), ("ifar_gstlal", fun i => fin i),
    ("spin1x", fun _ => fin 0), ("spin1y", fun _ => fin 0), ("spin1z", fun _ => fin 0.5),
    ("spin2x", fun _ => fin 0.1), ("spin2y", fun _ => fin 0.2), ("spin2z", fun _ => fin 0.3)]
  name := none

def demoO3Cols : O3Cols demoO3 where
  optsnr := fun i => fin i
  m1 := fun _ => fin 3
  m2 := fun _ => fin 2
  z := fun _ => fin 0.1
  pdf := fun _ => fin 2
  s1 := fun _ => (fin 0, fin 0, fin 0.5)
  s2 := fun _ => (fin 0.1, fin 0.2, fin 0.3)
  hsnr := by simp [demoO3, PyDict.get?]
  hm1 := by simp [demoO3, PyDict.get?]
  hm2 := by simp [demoO3, PyDict.get?]
  hz := by simp [demoO3, PyDict.get?]
  hpdf := by simp [demoO3, PyDict.get?]
  hx1 := by simp [demoO3, PyDict.get?]
  hy1 := by simp [demoO3, PyDict.get?]
  hz1 := by simp [demoO3, PyDict.get?]
  hx2 := by simp [demoO3, PyDict.get?]
  hy2 := by simp [demoO3, PyDict.get?]
  hz2 := by simp [demoO3, PyDict.get?]

theorem demoO3_not {i : ℕ} (hi : i < 3) : ¬ passesO3 demoO3 demoO3Cols.optsnr 5 10 i := by
  rintro (⟨k, c, h1, h2, h3⟩ | ⟨g, h1, _⟩)
  · simp only [demoO3, List.mem_cons, Prod.mk.injEq, List.not_mem_nil, or_false] at h1
    rcases h1 with h | h | h | h | h | h | h | h | h | h | h | h
    all_goals obtain ⟨rfl, rfl⟩ := h
    all_goals try (simp only [gt_fin] at h3; norm_num at h3)
    all_goals first
      | (have : (i : ℝ) < 3 := by exact_mod_cast hi
         linarith)
  · simp [demoO3] at h1

/-- the "cut" on masses adds an injection that failed every detection criterion -/
example : ∃ r K, getO3 demoO3 [("analysis_time", fin 1)] (fin 5) ["mass_1"] 5 10 (some [("mass1_source", 1)]) = .ok r ∧
    RowsOf r.rows K demoO3Cols.m1 demoO3Cols.m2 demoO3Cols.z demoO3Cols.s1 demoO3Cols.s2 ("a_1" ∈ ["mass_1"] ∨ "chi_eff" ∈ ["mass_1"]) ∧
    0 ∈ K ∧ ¬ passesO3 demoO3 demoO3Cols.optsnr 5 10 0 := by
  obtain ⟨r, K, h1, h2, _, h4⟩ := C65_cuts_fails (tg := fin 5) (ifar := 5) (snr := 10) (cuts := [("mass1_source", 1)]) demoO3Cols
    (by simp [FileTime, PyDict.get?] : FileTime [("analysis_time", fin 1)] (fin 1))
    (by simp [demoO3, PyDict.keys]) ["mass_1"]
  have hd := demoO3_not (i := 0) (by norm_num)
  exact ⟨r, K, h1, h2, h4 0 (by simp [demoO3]) hd ⟨"mass1_source", 1, _, by simp, demoO3Cols.hm1, by simp [demoO3Cols, F.ge]⟩, hd⟩

example : rsN (n := 2) (fun _ => 1) (fun _ => 1) ≤ 2 := (C67_draws (by norm_num) (by norm_num)).2.2.2.1

end GW
end
