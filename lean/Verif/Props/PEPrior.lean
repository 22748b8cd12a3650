import Verif.Props.DataCollection

/-!
# C84, C86–C89: sampling priors attached to the catalogue
-/

noncomputable section
open Classical MeasureTheory
namespace GW
open Cosmo

theorem interp_pos {n : ℕ} (hn : 2 ≤ n) {xp fp : ℕ → ℝ} (hx : IncOn n xp) (hf : IncOn n fp) (hx0 : xp 0 = 0) (hf0 : fp 0 = 0)
    {x : ℝ} (h : 0 < x) : 0 < interp n xp fp x := by
  rcases lt_or_ge (xp (n - 1)) x with h1 | h1
  · rw [interp_above hx (by omega) h1, ← hf0]
    exact hf.lt (by omega) (by omega)
  · obtain ⟨i, hi, h2, h3⟩ := exists_cell hn (hx0 ▸ h.le) h1
    rcases Nat.eq_zero_or_pos i with rfl | hip
    · rw [interp_cell hx hi h2 h3, hx0, hf0]
      have h4 := hx 0 hi
      have h5 := hf 0 hi
      rw [hx0] at h4; rw [hf0] at h5
      simp only [zero_add, sub_zero] at *
      positivity
    · refine lt_of_lt_of_le ?_ (interp_cell_mem hx hi (hf i hi).le h2 h3).1
      rw [← hf0]
      exact hf.lt hip (by omega)

theorem interp_pos_of {n : ℕ} (hn : 2 ≤ n) {xp fp : ℕ → ℝ} (hx : IncOn n xp) (hx0 : xp 0 = 0) (hf0 : 0 ≤ fp 0) (hf : ∀ i < n, 0 < i → 0 < fp i)
    {x : ℝ} (h : 0 < x) : 0 < interp n xp fp x := by
  rcases lt_or_ge (xp (n - 1)) x with h1 | h1
  · rw [interp_above hx (by omega) h1]
    exact hf _ (by omega) (by omega)
  · obtain ⟨i, hi, h2, h3⟩ := exists_cell hn (hx0 ▸ h.le) h1
    rw [interp_cell hx hi h2 h3]
    have h4 : 0 < xp (i + 1) - xp i := sub_pos.2 (hx i hi)
    have h5 := hf (i + 1) hi (by omega)
    have t0 : 0 ≤ (x - xp i) / (xp (i + 1) - xp i) := div_nonneg (by linarith) h4.le
    have t1 : (x - xp i) / (xp (i + 1) - xp i) ≤ 1 := (div_le_one h4).2 (by linarith)
    rcases Nat.eq_zero_or_pos i with rfl | hip
    · have t2 : 0 < (x - xp 0) / (xp (0 + 1) - xp 0) := div_pos (by rw [hx0]; linarith) h4
      nlinarith [mul_pos t2 h5, mul_nonneg (sub_nonneg.2 t1) hf0]
    · have h6 := hf i (by omega) hip
      rcases t0.eq_or_lt with t2 | t2
      · rw [← t2]; linarith
      · nlinarith [mul_pos t2 h5, mul_nonneg (sub_nonneg.2 t1) h6.le]

theorem trapz_pos' {n : ℕ} (hn : 2 ≤ n) {y x : ℕ → ℝ} (h0 : 0 ≤ y 0) (hy : ∀ i < n, 0 < i → 0 < y i)
    (hx : ∀ i, i + 1 < n → x i < x (i + 1)) : 0 < trapz n y x := by
  unfold trapz
  refine mul_pos (by norm_num) (Finset.sum_pos (fun i hi => ?_) ⟨0, by simp; omega⟩)
  have hi' : i + 1 < n := by have := Finset.mem_range.1 hi; omega
  refine mul_pos (sub_pos.2 (hx i hi')) ?_
  have h1 := hy (i + 1) hi' (by omega)
  rcases Nat.eq_zero_or_pos i with rfl | hip
  · linarith
  · have := hy i (by omega) hip; linarith

theorem zGrid_facts {zmax : ℝ} (h : 1.9 ≤ zmax) :
    IncOn 1000 (zGrid zmax).get ∧ (zGrid zmax).get 0 = 0 ∧ (zGrid zmax).get (1000 - 1) = zmax * 1.01 ∧
    ∀ i < 1000, 0 ≤ (zGrid zmax).get i ∧ (zGrid zmax).get i ≤ zmax * 1.01 := by
  have hp : (0 : ℝ) < zmax * 1.01 := by norm_num at h ⊢; linarith
  refine ⟨IncOn.strictMono (linspace_strictMono hp (by norm_num)), linspace_zero _ _ _, linspace_last _ _ (by norm_num), ?_⟩
  intro i hi
  exact linspace_mem hp.le (by norm_num) hi

/-- covering a grid that starts at zero and reaches beyond 1.9 leaves a usable table -/
theorem cover_usable {s : Obj} {p : Par} {n : ℕ} {dz0 : ℝ} (h : IsTab s p n dz0) {zmax : ℝ} (hz : 1.9 ≤ zmax) :
    ∃ s' n' dz', s.cover (entries 1000 (zGrid zmax).get) 1e-3 = .ok s' ∧ IsTab s' p n' dz' ∧ 2 ≤ n' := by
  obtain ⟨g1, g2, g3, g4⟩ := zGrid_facts hz
  have hp : (1 : ℝ) < zmax * 1.01 := by norm_num at hz ⊢; linarith
  have hmem : zmax * 1.01 ∈ entries 1000 (zGrid zmax).get := by
    rw [← g3]; exact List.mem_map.2 ⟨999, by simp, rfl⟩
  rcases cover_cases h (entries 1000 (zGrid zmax).get) 1e-3 with ⟨hn, _⟩ | ⟨m, hm, hmax, he⟩
  · rw [hn] at hmem; cases hmem
  · have hm1 : 1 < m := hp.trans_le (hmax _ hmem)
    by_cases hc : ((n - 1 : ℕ) : ℝ) * dz0 < m
    · rw [if_pos hc] at he
      have ht := extend_isTab s (max_z := m) (dz := 1e-3) (by linarith) (by norm_num)
      rw [h.par] at ht
      refine ⟨_, _, _, he, ht, ?_⟩
      have : (1 : ℝ) < m / 1e-3 := by rw [lt_div_iff₀ (by norm_num)]; norm_num; linarith
      have := Nat.lt_ceil.2 (by exact_mod_cast this : ((1 : ℕ) : ℝ) < m / 1e-3)
      omega
    · rw [if_neg hc] at he
      refine ⟨_, _, _, he, h, ?_⟩
      by_contra hn
      have : n - 1 = 0 := by omega
      rw [this] at hc
      simp only [Nat.cast_zero, zero_mul, not_lt] at hc
      linarith

/-- the redshift density used for one event: unnormalised value at redshift `z`, distances from the package's own cosmology
answers `DL` (luminosity) and `DC` (comoving) -/
def rawZ (p : Par) (DL DC : ℝ → ℝ) (euclidean : Bool) (z : ℝ) : ℝ :=
  if euclidean then DL z ^ 2 * (DL z / (1 + z) + (1 + z) * hubble p z) else 4 * Real.pi * DC z ^ 2 * hubble p z / (1 + z)

/-- grid point `i` of the tabulated redshift densities: 1000 equally spaced redshifts from 0 to one percent above `top` -/
def zNode (top : ℝ) (i : ℕ) : ℝ := top * 1.01 * i / 999

/-- What the two tabulated redshift densities of a catalogue reaching to redshift `top` are, given the cosmology object: with the distances
`DL` and `DC` that the object answers on the grid, `pe` is `DL² dDL/dz` and `pc` is `dVc/dz/(1+z)`, each divided by one positive constant;
they are positive except possibly at redshift zero, and the densities used between the grid points integrate to one. -/
def ZDensities (p : Par) (s : Obj) (top : ℝ) (pe pc : ℕ → ℝ) : Prop :=
  let grid := (List.range 1000).map (zNode top)
  ∃ (DL DC : ℝ → ℝ) (Ne Nc : ℝ), 0 < Ne ∧ 0 < Nc ∧
    (∃ s', s.z2DL grid 1e-3 = (s', .ok (grid.map DL)) ∧ (s'.z2Dc grid 1e-3).2 = .ok (grid.map DC)) ∧
    (∀ i < 1000, pe i = rawZ p DL DC true (zNode top i) / Ne ∧ pc i = rawZ p DL DC false (zNode top i) / Nc) ∧
    (∀ i < 1000, 0 ≤ pe i ∧ 0 ≤ pc i ∧ (0 < i → 0 < pe i ∧ 0 < pc i)) ∧
    ∫ z in (0 : ℝ)..(top * 1.01), interp 1000 (zNode top) pe z = 1 ∧
    ∫ z in (0 : ℝ)..(top * 1.01), interp 1000 (zNode top) pc z = 1

theorem zGrid_eq (top : ℝ) : (zGrid top).get = zNode top := by
  funext i
  simp only [zGrid, linspace, zNode]
  norm_num
  ring

/-- **C84 (redshift densities).** For every history of the cosmology object and every catalogue range, the two tabulated
densities are those of `DL² dDL/dz` and `dVc/dz/(1+z)` on the grid, divided by one positive constant each, and the density
used between grid points integrates to one over the grid. -/
theorem C84_redshift {p : Par} (hf : Flat p) {max_z dz0 : ℝ} (hm : 0 < max_z) (hd0 : 0 < dz0) {s0 : Obj}
    (hs : init p max_z dz0 = .ok s0) (hist : List Op) (hh : ∀ op ∈ hist, op.Ok) {zmax : ℝ} (hz : 1.9 ≤ zmax) :
    let s := s0.run hist
    ∃ pe pc : ℕ → ℝ, zPriors s zmax = .ok (pe, pc) ∧ ZDensities p s zmax pe pc := by
  intro s
  obtain ⟨n, dz', h⟩ := run_state hm hd0 hs hist hh
  obtain ⟨g1, g2, g3, g4⟩ := zGrid_facts hz
  obtain ⟨s1, n1, dz1, hcov, h1, hn1⟩ : ∃ s' n' dz', s.cover (entries 1000 (zGrid zmax).get) 1e-3 = .ok s' ∧ IsTab s' p n' dz' ∧ 2 ≤ n' := cover_usable h hz
  obtain ⟨s2, n2, dz2, hcov2, h2, hn2⟩ : ∃ s' n' dz', s1.cover (entries 1000 (zGrid zmax).get) 1e-3 = .ok s' ∧ IsTab s' p n' dz' ∧ 2 ≤ n' := cover_usable h1 hz
  have hz2DL : s.z2DL (entries 1000 (zGrid zmax).get) 1e-3 = (s1, .ok ((entries 1000 (zGrid zmax).get).map (interp s1.n s1.tab.z s1.DL))) := by
    unfold Obj.z2DL; rw [hcov]
  have hz2Dc : s1.z2Dc (entries 1000 (zGrid zmax).get) 1e-3 = (s2, .ok ((entries 1000 (zGrid zmax).get).map (interp s2.n s2.tab.z s2.tab.Dc))) := by
    unfold Obj.z2Dc; rw [hcov2]
  set DL := interp s1.n s1.tab.z s1.DL with hDL
  set DC := interp s2.n s2.tab.z s2.tab.Dc with hDC
  have hDLpos : ∀ z, 0 < z → 0 < DL z := by
    intro z hz0
    rw [hDL, h1.len]
    refine interp_pos hn1 (h1.incz _) (h1.incDL hf) (by rw [h1.z]; simp) ?_ hz0
    unfold Obj.DL; rw [h1.Dc 0 h1.pos]; simp [trapD]
  have hDL0 : DL 0 = 0 := by
    have := interp_node hn1 (fp := s1.DL) (h1.incz n1) (i := 0) (by omega)
    rw [h1.z] at this
    rw [hDL, h1.len]
    simp only [Nat.cast_zero, zero_mul] at this
    rw [this]; unfold Obj.DL; rw [h1.Dc 0 h1.pos]; simp [trapD]
  have hDCpos : ∀ z, 0 < z → 0 < DC z := by
    intro z hz0
    rw [hDC, h2.len]
    refine interp_pos hn2 (h2.incz _) (h2.incD hf) (by rw [h2.z]; simp) ?_ hz0
    rw [h2.Dc 0 h2.pos]; simp [trapD]
  have hent : ∀ (f : ℝ → ℝ → ℝ) (D : ℝ → ℝ), List.zipWith f (entries 1000 (zGrid zmax).get) ((entries 1000 (zGrid zmax).get).map D)
      = (List.range 1000).map fun i => f ((zGrid zmax).get i) (D ((zGrid zmax).get i)) := by
    intro f D
    unfold entries
    rw [List.map_map, zipWith_map_map]; rfl
  have hgetD : ∀ (f : ℕ → ℝ) (i : ℕ), i < 1000 → ((List.range 1000).map f).getD i 0 = f i := by
    intro f i hi
    rw [List.getD_eq_getElem?_getD, List.getElem?_map, List.getElem?_range hi]; rfl
  -- the two raw tables
  have hpe : (dl2PriorOnZ s (entries 1000 (zGrid zmax).get) true) = (s1, .ok ((List.range 1000).map fun i => rawZ p DL DC true ((zGrid zmax).get i))) := by
    unfold dl2PriorOnZ
    simp only [if_true, hz2DL, Except.map, hent, show s.par = p from h.par, dDcdz_eq hf, rawZ]
  have hpc : (dl2PriorOnZ s1 (entries 1000 (zGrid zmax).get) false).2 = .ok ((List.range 1000).map fun i => rawZ p DL DC false ((zGrid zmax).get i)) := by
    unfold dl2PriorOnZ Obj.dVcdz Obj.distance
    simp only [Bool.false_eq_true, if_false, hz2Dc, Except.map, hent, h1.par]
    unfold entries
    rw [zipWith_map_map]
    simp only [rawZ, Bool.false_eq_true, if_false, Par.dVcdzAt, dDcdz_eq hf]
  have hraw0 : ∀ b, 0 ≤ rawZ p DL DC b ((zGrid zmax).get 0) := by
    intro b
    rw [g2]
    have := hubble_pos hf (z := 0) le_rfl
    cases b
    · simp only [rawZ, Bool.false_eq_true, if_false]; positivity
    · simp only [rawZ, if_true, hDL0]; simp
  have hrawpos : ∀ b, ∀ i < 1000, 0 < i → 0 < rawZ p DL DC b ((zGrid zmax).get i) := by
    intro b i hi hi0
    have hzi : 0 < (zGrid zmax).get i := by
      have := g1.lt hi0 hi
      rwa [g2] at this
    have h1 := hubble_pos hf hzi.le
    have h2 := hDLpos _ hzi
    have h3 := hDCpos _ hzi
    cases b
    · simp only [rawZ, Bool.false_eq_true, if_false]; positivity
    · simp only [rawZ, if_true]; positivity
  have hN : ∀ b, 0 < trapz 1000 (fun i => ((List.range 1000).map fun i => rawZ p DL DC b ((zGrid zmax).get i)).getD i 0) (zGrid zmax).get := by
    intro b
    rw [trapz_congr (y' := fun i => rawZ p DL DC b ((zGrid zmax).get i)) (fun i hi => hgetD _ i hi) (fun _ _ => rfl)]
    exact trapz_pos' (by norm_num) (hraw0 b) (hrawpos b) g1
  have hint : ∀ b, ∫ z in (0 : ℝ)..(zmax * 1.01), interp 1000 (zGrid zmax).get
      (fun i => ((List.range 1000).map fun i => rawZ p DL DC b ((zGrid zmax).get i)).getD i 0 /
        trapz 1000 (fun i => ((List.range 1000).map fun i => rawZ p DL DC b ((zGrid zmax).get i)).getD i 0) (zGrid zmax).get) z = 1 := by
    intro b
    have := interp_integral (fp := fun i => ((List.range 1000).map fun i => rawZ p DL DC b ((zGrid zmax).get i)).getD i 0 /
        trapz 1000 (fun i => ((List.range 1000).map fun i => rawZ p DL DC b ((zGrid zmax).get i)).getD i 0) (zGrid zmax).get) g1
    rw [g2, g3, trapz_div, div_self (hN b).ne'] at this
    exact this
  unfold ZDensities
  rw [← zGrid_eq]
  refine ⟨_, _, ?_, DL, DC, _, _, hN true, hN false, ⟨s1, hz2DL, by rw [show (List.range 1000).map (zGrid zmax).get = entries 1000 (zGrid zmax).get from rfl, hz2Dc]⟩,
    ?_, ?_, hint true, hint false⟩
  · unfold zPriors
    simp only [hpe, hpc]
  · intro i hi
    simp only [hgetD _ i hi]
    exact ⟨trivial, trivial⟩
  · intro i hi
    simp only [hgetD _ i hi]
    have : ∀ b, 0 ≤ rawZ p DL DC b ((zGrid zmax).get i) := by
      intro b
      rcases Nat.eq_zero_or_pos i with rfl | hip
      · exact hraw0 b
      · exact (hrawpos b i hi hip).le
    exact ⟨div_nonneg (this true) (hN true).le, div_nonneg (this false) (hN false).le,
      fun hip => ⟨div_pos (hrawpos true i hi hip) (hN true), div_pos (hrawpos false i hi hip) (hN false)⟩⟩

/-- the sampling density of one posterior sample: redshift density times the detector-frame-mass Jacobian `(1+z)²`, times
`m1` when the mass ratio is used, times the density `(1/2)²` of two uniform magnitudes and isotropic tilts -/
def peDensity (ps : List String) (pz : ℝ → ℝ) (z m1 : ℝ) : ℝ :=
  (if "redshift" ∈ ps then pz z else 1) * (if "mass_1" ∈ ps then (1 + z) ^ 2 else 1) * (if "mass_ratio" ∈ ps then m1 else 1) *
    (if "a_1" ∈ ps then 1 / 4 else 1)

theorem mulIf_range {c : Prop} [Decidable c] {n : ℕ} {r : Except PyErr (List ℝ)} {f g : ℕ → ℝ} (h : c → r = .ok ((List.range n).map g)) :
    mulIf c r ((List.range n).map f) = .ok ((List.range n).map fun j => f j * if c then g j else 1) := by
  unfold mulIf
  by_cases hc : c
  · simp only [if_pos hc, h hc, zipWith_map_map]
  · simp only [if_neg hc, mul_one]

theorem replicate_eq_range (n : ℕ) (x : ℝ) : List.replicate n x = (List.range n).map fun _ => x := by
  simp [List.map_const']

theorem eventPrior_eq {zmax : ℝ} {pz : (ℕ → ℝ) × (ℕ → ℝ)} {ps : List String} {d : EvData} {z m1 : ℕ → ℝ}
    (hz : d.cols.get? "redshift" = some ((List.range d.n).map z)) (hm : d.cols.get? "mass_1" = some ((List.range d.n).map m1))
    (hp : d.zprior = "euclidean" ∨ d.zprior = "comoving") :
    eventPrior zmax pz ps d = .ok ((List.range d.n).map fun j =>
      peDensity ps (interp 1000 (zGrid zmax).get (if d.zprior = "euclidean" then pz.1 else pz.2)) (z j) (m1 j)) := by
  unfold eventPrior
  have hrz : d.row "redshift" = .ok ((List.range d.n).map z) := by simp [EvData.row, hz]
  have hrm : d.row "mass_1" = .ok ((List.range d.n).map m1) := by simp [EvData.row, hm]
  have hzf : zFactor zmax pz d = .ok ((List.range d.n).map fun j =>
      interp 1000 (zGrid zmax).get (if d.zprior = "euclidean" then pz.1 else pz.2) (z j)) := by
    unfold zFactor
    rw [if_neg (by simp only [List.mem_cons, List.not_mem_nil, or_false, not_not]; exact hp), hrz]
    simp only [Except.map, List.map_map, Function.comp_def]
  rw [replicate_eq_range, replicate_eq_range, mulIf_range fun _ => hzf]
  simp only [bind, Except.bind]
  rw [mulIf_range (g := fun j => (1 + z j) ^ 2) fun _ => by rw [hrz]; simp [Except.map, Function.comp_def]]
  simp only []
  rw [mulIf_range fun _ => hrm]
  simp only []
  rw [mulIf_range fun _ => rfl]
  simp only [peDensity, one_mul]

theorem foldl_max_mem (l : List ℝ) (a : ℝ) : l.foldl max a = a ∨ l.foldl max a ∈ l := by
  induction l generalizing a with
  | nil => exact .inl rfl
  | cons x l ih =>
    rw [List.foldl_cons]
    rcases ih (max a x) with h | h
    · rw [h]
      rcases le_total a x with h' | h'
      · rw [max_eq_right h']; exact .inr (List.mem_cons_self ..)
      · rw [max_eq_left h']; exact .inl rfl
    · exact .inr (List.mem_cons_of_mem _ h)

theorem zMax_ge (cat : List (String × EvData)) : 1.9 ≤ zMax cat := le_foldl_max.1

/-- **C84 (rows).** With valid redshift-prior names every event gets one additional row, whose entry `j` is the sampling density
at that event's sample `j`, using the redshift density named for that event; every sample lies inside the tabulated range. -/
theorem C84_rows {p : Par} (hf : Flat p) {max_z dz0 : ℝ} (hm : 0 < max_z) (hd0 : 0 < dz0) {s0 : Obj}
    (hs : init p max_z dz0 = .ok s0) (hist : List Op) (hh : ∀ op ∈ hist, op.Ok) (ps : List String)
    {cat : List (String × EvData)} (hne : cat ≠ []) (z m1 : String × EvData → ℕ → ℝ)
    (hz : ∀ o ∈ cat, o.2.cols.get? "redshift" = some ((List.range o.2.n).map (z o)))
    (hm1 : ∀ o ∈ cat, o.2.cols.get? "mass_1" = some ((List.range o.2.n).map (m1 o)))
    (hp : ∀ o ∈ cat, o.2.zprior = "euclidean" ∨ o.2.zprior = "comoving") :
    ∃ top pe pc out, ("redshift" ∈ ps → ZDensities p (s0.run hist) top pe pc) ∧ appendPrior (s0.run hist) cat ps = .ok out ∧
      1.9 ≤ top ∧ (∀ o ∈ cat, ∀ j < o.2.n, z o j ≤ top) ∧ (top = 1.9 ∨ ∃ o ∈ cat, ∃ j < o.2.n, top = z o j) ∧
      List.Forall₂ (fun o o' => o'.1 = o.1 ∧ o'.2.n = o.2.n ∧ o'.2.cols = o.2.cols ++ [("prior", (List.range o.2.n).map fun j =>
        peDensity ps (interp 1000 (zNode top) (if o.2.zprior = "euclidean" then pe else pc)) (z o j) (m1 o j))]) cat out := by
  have hz19 := zMax_ge cat
  obtain ⟨pe, pc, hzp, hzd⟩ := C84_redshift hf hm hd0 hs hist hh hz19
  have htop : zMax cat = 1.9 ∨ ∃ o ∈ cat, ∃ j < o.2.n, zMax cat = z o j := by
    rcases foldl_max_mem (cat.flatMap fun p => (p.2.cols.get? "redshift").getD []) 1.9 with h | h
    · exact .inl h
    · obtain ⟨o, ho, h⟩ := List.mem_flatMap.1 h
      rw [hz o ho] at h
      obtain ⟨j, hj, h⟩ := List.mem_map.1 h
      exact .inr ⟨o, ho, j, List.mem_range.1 hj, h.symm⟩
  have hbound : ∀ o ∈ cat, ∀ j < o.2.n, z o j ≤ zMax cat := by
    intro o ho j hj
    refine le_foldl_max.2 _ (List.mem_flatMap.2 ⟨o, ho, ?_⟩)
    rw [hz o ho]
    exact List.mem_map.2 ⟨j, List.mem_range.2 hj, rfl⟩
  have main : ∀ pz : (ℕ → ℝ) × (ℕ → ℝ), ∃ out, mapE (fun (p : String × EvData) =>
      (eventPrior (zMax cat) pz ps p.2).map fun pr => (p.1, { p.2 with cols := p.2.cols ++ [("prior", pr)] })) cat = .ok out ∧
      List.Forall₂ (fun o o' => o'.1 = o.1 ∧ o'.2.n = o.2.n ∧ o'.2.cols = o.2.cols ++ [("prior", (List.range o.2.n).map fun j =>
        peDensity ps (interp 1000 (zGrid (zMax cat)).get (if o.2.zprior = "euclidean" then pz.1 else pz.2)) (z o j) (m1 o j))]) cat out := by
    intro pz
    refine ⟨_, mapE_of (bs := cat.map fun o => (o.1, { o.2 with cols := o.2.cols ++ [("prior", (List.range o.2.n).map fun j =>
        peDensity ps (interp 1000 (zGrid (zMax cat)).get (if o.2.zprior = "euclidean" then pz.1 else pz.2)) (z o j) (m1 o j))] })) ?_, ?_⟩
    · rw [List.forall₂_map_right_iff, List.forall₂_same]
      intro o ho
      rw [eventPrior_eq (hz o ho) (hm1 o ho) (hp o ho)]; rfl
    · rw [List.forall₂_map_right_iff, List.forall₂_same]
      exact fun o ho => ⟨rfl, rfl, rfl⟩
  by_cases hr : "redshift" ∈ ps
  · obtain ⟨out, h1, h2⟩ := main (pe, pc)
    refine ⟨zMax cat, pe, pc, out, fun _ => hzd, ?_, hz19, hbound, htop, by rw [← zGrid_eq]; exact h2⟩
    unfold appendPrior
    simp only [if_neg hne, if_pos hr, hzp, bind, Except.bind, pure, Except.pure, h1]
  · obtain ⟨out, h1, h2⟩ := main (fun _ => 0, fun _ => 0)
    refine ⟨zMax cat, _, _, out, fun h => absurd h hr, ?_, hz19, hbound, htop, by rw [← zGrid_eq]; exact h2⟩
    unfold appendPrior
    simp only [if_neg hne, if_neg hr, bind, Except.bind, pure, Except.pure, h1]

/-- **C84 (Jacobian).** The factor of the masses is the Jacobian determinant of
`(m1, q) ↦ ((1+z) m1, (1+z) q m1)`, whose matrix of partial derivatives is listed. -/
theorem C84_jacobian (z m1 q : ℝ) :
    let J : Matrix (Fin 2) (Fin 2) ℝ := !![1 + z, 0; (1 + z) * q, (1 + z) * m1]
    HasDerivAt (fun m => (1 + z) * m) (J 0 0) m1 ∧ HasDerivAt (fun _ : ℝ => (1 + z) * m1) (J 0 1) q ∧
    HasDerivAt (fun m => (1 + z) * (q * m)) (J 1 0) m1 ∧ HasDerivAt (fun q => (1 + z) * (q * m1)) (J 1 1) q ∧
    J.det = (1 + z) ^ 2 * m1 := by
  intro J
  refine ⟨?_, ?_, ?_, ?_, ?_⟩
  · exact ((hasDerivAt_id m1).const_mul (1 + z)).congr_deriv (by simp [J])
  · exact (hasDerivAt_const q _).congr_deriv (by simp [J])
  · exact (((hasDerivAt_id m1).const_mul q).const_mul (1 + z)).congr_deriv (by simp [J])
  · exact (((hasDerivAt_id q).mul_const m1).const_mul (1 + z)).congr_deriv (by simp [J])
  · rw [Matrix.det_fin_two_of]; ring

theorem hubble_continuousAt {p : Par} (hf : Flat p) {z : ℝ} (hz : 0 ≤ z) : ContinuousAt (hubble p) z := by
  unfold hubble
  refine ContinuousAt.div continuousAt_const ?_ ?_
  · fun_prop
  · exact (mul_pos hf.Ho (Real.sqrt_pos.2 (g_pos hf hz))).ne'

/-- **C84 (euclidean prior).** For the exact luminosity distance `(1+z) ∫_0^z c/H` the second factor of the euclidean density is
its derivative, so that density is `DL² dDL/dz`. -/
theorem C84_euclidean {p : Par} (hf : Flat p) {z : ℝ} (hz : 0 < z) :
    let DL := fun z => (1 + z) * exactDc p z
    HasDerivAt DL (DL z / (1 + z) + (1 + z) * hubble p z) z := by
  intro DL
  have h1 : HasDerivAt (exactDc p) (hubble p z) z := by
    unfold exactDc
    refine intervalIntegral.integral_hasDerivAt_right (hubble_intble hf le_rfl hz.le) ?_ (hubble_continuousAt hf hz.le)
    refine ContinuousOn.stronglyMeasurableAtFilter isOpen_Ioi ?_ z hz
    exact fun x hx => (hubble_continuousAt hf (le_of_lt hx)).continuousWithinAt
  have h2 : HasDerivAt (fun z : ℝ => 1 + z) 1 z := (hasDerivAt_id z).const_add 1
  refine (h2.mul h1).congr_deriv ?_
  have : (1 + z) ≠ 0 := by positivity
  simp only [DL]
  field_simp

/-- **C84 (validation).** An event naming any other redshift prior is refused. -/
theorem C84_validation {p : Par} (hf : Flat p) {max_z dz0 : ℝ} (hm : 0 < max_z) (hd0 : 0 < dz0) {s0 : Obj}
    (hs : init p max_z dz0 = .ok s0) (hist : List Op) (hh : ∀ op ∈ hist, op.Ok) {ps : List String} (hps : "redshift" ∈ ps)
    {cat : List (String × EvData)} (z m1 : String × EvData → ℕ → ℝ)
    (hz : ∀ o ∈ cat, o.2.cols.get? "redshift" = some ((List.range o.2.n).map (z o)))
    (hm1 : ∀ o ∈ cat, o.2.cols.get? "mass_1" = some ((List.range o.2.n).map (m1 o)))
    {o : String × EvData} (ho : o ∈ cat) (hbad : o.2.zprior ≠ "euclidean" ∧ o.2.zprior ≠ "comoving") :
    appendPrior (s0.run hist) cat ps = .error .assertionError := by
  have hne : cat ≠ [] := List.ne_nil_of_mem ho
  obtain ⟨pe, pc, hzp, _⟩ := C84_redshift hf hm hd0 hs hist hh (zMax_ge cat)
  unfold appendPrior
  simp only [if_neg hne, if_pos hps, hzp, bind, Except.bind, pure, Except.pure]
  have hbadE : ∀ d : EvData, ¬ (d.zprior = "euclidean" ∨ d.zprior = "comoving") → eventPrior (zMax cat) (pe, pc) ps d = .error .assertionError := by
    intro d hd
    have hzf : zFactor (zMax cat) (pe, pc) d = .error .assertionError := by
      unfold zFactor; rw [if_pos (by simpa using hd)]
    unfold eventPrior mulIf
    simp only [hps, if_true, hzf, bind, Except.bind]
  generalize zMax cat = zm at *
  clear hzp hne
  induction cat with
  | nil => cases ho
  | cons c cat ih =>
    simp only [mapE]
    by_cases hc : c.2.zprior = "euclidean" ∨ c.2.zprior = "comoving"
    · rw [eventPrior_eq (hz c List.mem_cons_self) (hm1 c List.mem_cons_self) hc]
      have ho' : o ∈ cat := by
        rcases List.mem_cons.1 ho with rfl | h
        · rcases hc with h | h
          · exact absurd h hbad.1
          · exact absurd h hbad.2
        · exact h
      have := ih (fun o h => hz o (List.mem_cons_of_mem _ h)) (fun o h => hm1 o (List.mem_cons_of_mem _ h)) ho'
      rw [this]
      simp only [Except.map]
    · rw [hbadE c.2 hc]; rfl

/-! ## C86 -/

/-- **C86, what is computed.** Without `chi_p`, every converted posterior sample and injection carries its effective spin and its
prior divided by `(2π a1²)(2π a2²)` and multiplied by the effective-spin prior.  Partial; missing: being the density of the retained parameters: `C86_density_fails`, `C86_injection_fails`. -/
theorem C86_value_partial {iso : ℝ → ℝ → Except PyErr F} {joint : ℝ → ℝ → ℝ → Except PyErr F} {ps : List String} (hps : "chi_p" ∉ ps)
    {v : ℝ → ℝ → ℝ} (hv : ∀ x q, iso x q = .ok (F.fin (v x q))) (r : SpinSample) (ha : r.a1 ≠ 0) (hb : r.a2 ≠ 0) :
    convertPE iso joint ps [[r]] 1 = .ok [[((r.a1 * r.ct1 + r.q * r.a2 * r.ct2) / (1 + r.q),
      F.fin (r.prior / ((2 * Real.pi * r.a1 ^ 2) * (2 * Real.pi * r.a2 ^ 2)) * v ((r.a1 * r.ct1 + r.q * r.a2 * r.ct2) / (1 + r.q)) r.q))]] ∧
    convertInj iso joint ps [r] = .ok [((r.a1 * r.ct1 + r.q * r.a2 * r.ct2) / (1 + r.q), none,
      F.fin (r.prior / ((2 * Real.pi * r.a1 ^ 2) * (2 * Real.pi * r.a2 ^ 2)) * v ((r.a1 * r.ct1 + r.q * r.a2 * r.ct2) / (1 + r.q)) r.q))] := by
  have h : (2 * Real.pi * r.a1 ^ 2) * (2 * Real.pi * r.a2 ^ 2) ≠ 0 := by
    have := Real.pi_pos.ne'
    positivity
  constructor
  · simp only [convertPE, if_neg hps, mapE, chieffSample, hv, newPrior, chieff, F.div_fin h, F.mul_fin]
  · simp only [convertInj, if_neg hps, mapE, chieffSample, hv, newPrior, chieff, F.div_fin h, F.mul_fin, Except.map,
      List.map_cons, List.map_nil]

/-- **C86 is false of the code.** The stored prior is not a density in the retained parameters: two samples with the same mass
ratio, effective spin and (mass, redshift) density get different priors whenever `a1 a2` differs. -/
theorem C86_density_fails {iso : ℝ → ℝ → Except PyErr F} {joint : ℝ → ℝ → ℝ → Except PyErr F} {ps : List String} (hps : "chi_p" ∉ ps)
    {v : ℝ → ℝ → ℝ} (hv : ∀ x q, iso x q = .ok (F.fin (v x q))) {r r' : SpinSample} (hq : r'.q = r.q) (hpr : r'.prior = r.prior)
    (hx : (r'.a1 * r'.ct1 + r'.q * r'.a2 * r'.ct2) / (1 + r'.q) = (r.a1 * r.ct1 + r.q * r.a2 * r.ct2) / (1 + r.q))
    (ha : 0 < r.a1) (hb : 0 < r.a2) (ha' : 0 < r'.a1) (hb' : 0 < r'.a2) (hp0 : r.prior ≠ 0)
    (hv0 : v ((r.a1 * r.ct1 + r.q * r.a2 * r.ct2) / (1 + r.q)) r.q ≠ 0) (hne : r.a1 * r.a2 ≠ r'.a1 * r'.a2) :
    ∃ x p p', convertPE iso joint ps [[r, r']] 2 = .ok [[(x, F.fin p), (x, F.fin p')]] ∧
      convertInj iso joint ps [r, r'] = .ok [(x, none, F.fin p), (x, none, F.fin p')] ∧ p ≠ p' := by
  have hpi := Real.pi_pos
  have h : (2 * Real.pi * r.a1 ^ 2) * (2 * Real.pi * r.a2 ^ 2) ≠ 0 := by positivity
  have h' : (2 * Real.pi * r'.a1 ^ 2) * (2 * Real.pi * r'.a2 ^ 2) ≠ 0 := by positivity
  have hx' : chieff r'.q r'.a1 r'.a2 r'.ct1 r'.ct2 = chieff r.q r.a1 r.a2 r.ct1 r.ct2 := hx
  refine ⟨chieff r.q r.a1 r.a2 r.ct1 r.ct2,
    r.prior / ((2 * Real.pi * r.a1 ^ 2) * (2 * Real.pi * r.a2 ^ 2)) * v (chieff r.q r.a1 r.a2 r.ct1 r.ct2) r.q,
    r.prior / ((2 * Real.pi * r'.a1 ^ 2) * (2 * Real.pi * r'.a2 ^ 2)) * v (chieff r.q r.a1 r.a2 r.ct1 r.ct2) r.q, ?_, ?_, ?_⟩
  · simp only [convertPE, if_neg hps, mapE, chieffSample, hv, newPrior, hx', hq, hpr, F.div_fin h, F.div_fin h', F.mul_fin]
    rw [hq] at hx'
    simp only [hx']
  · simp only [convertInj, if_neg hps, mapE, chieffSample, hv, newPrior, hx', hq, hpr, F.div_fin h, F.div_fin h', F.mul_fin, Except.map,
      List.map_cons, List.map_nil]
    rw [hq] at hx'
    simp only [hx']
  · intro heq
    have hv0' : v (chieff r.q r.a1 r.a2 r.ct1 r.ct2) r.q ≠ 0 := hv0
    have h1 := mul_right_cancel₀ hv0' heq
    rw [div_eq_div_iff h h'] at h1
    have h2 := mul_left_cancel₀ hp0 h1
    have h3 : (r'.a1 * r'.a2) ^ 2 = (r.a1 * r.a2) ^ 2 := by
      have h4 : (4 * Real.pi ^ 2) * (r'.a1 * r'.a2) ^ 2 = (4 * Real.pi ^ 2) * (r.a1 * r.a2) ^ 2 := by linear_combination h2
      exact mul_left_cancel₀ (by positivity) h4
    have := (pow_left_inj₀ (by positivity) (by positivity) two_ne_zero).1 h3
    exact hne this.symm

/-- **C86.** For injections drawn with uniform magnitudes and isotropic directions (spin density 1/4 in magnitude and cosine) the
stored prior is the mass–redshift density times the effective-spin prior times `1/(16 π² a1² a2²)`. -/
theorem C86_injection_fails {iso : ℝ → ℝ → Except PyErr F} {joint : ℝ → ℝ → ℝ → Except PyErr F} {ps : List String} (hps : "chi_p" ∉ ps)
    {v : ℝ → ℝ → ℝ} (hv : ∀ x q, iso x q = .ok (F.fin (v x q))) {r : SpinSample} {pm : ℝ} (hpr : r.prior = pm * (1 / 4))
    (ha : 0 < r.a1) (hb : 0 < r.a2) (hpm : pm ≠ 0)
    (hv0 : v ((r.a1 * r.ct1 + r.q * r.a2 * r.ct2) / (1 + r.q)) r.q ≠ 0) (hne : 4 * Real.pi * (r.a1 * r.a2) ≠ 1) :
    ∃ x p, convertInj iso joint ps [r] = .ok [(x, none, F.fin p)] ∧ p = pm * v x r.q / (16 * Real.pi ^ 2 * r.a1 ^ 2 * r.a2 ^ 2) ∧
      p ≠ pm * v x r.q := by
  have hpi := Real.pi_pos
  refine ⟨_, _, (C86_value_partial hps hv r ha.ne' hb.ne').2, ?_, ?_⟩
  · rw [hpr]; field_simp; ring
  · rw [hpr]
    intro h
    have h0 : pm * v ((r.a1 * r.ct1 + r.q * r.a2 * r.ct2) / (1 + r.q)) r.q ≠ 0 := mul_ne_zero hpm hv0
    have h1 : pm * v ((r.a1 * r.ct1 + r.q * r.a2 * r.ct2) / (1 + r.q)) r.q * (4 * Real.pi * (r.a1 * r.a2)) ^ 2
        = pm * v ((r.a1 * r.ct1 + r.q * r.a2 * r.ct2) / (1 + r.q)) r.q := by
      rw [div_mul_eq_mul_div, div_eq_iff (by positivity)] at h
      linear_combination (-4) * h
    have h2 : (4 * Real.pi * (r.a1 * r.a2)) ^ 2 = 1 := by
      have := mul_left_cancel₀ h0 (h1.trans (mul_one _).symm)
      exact this
    have h3 := (pow_eq_one_iff_of_nonneg (by positivity) two_ne_zero).1 h2
    exact hne h3

/-! ## C87 -/

/-- **C87 is false of the code.** With neither metadata nor a key file the error is a `TypeError` from opening `None`, not the
promised assertion. -/
theorem C87_missing_fails {α : Type} (readJson : String → Except PyErr α) :
    metadata (none : Option α) none readJson = .error .typeError := rfl

/-- **C87, partial.** With metadata, or with a key file, those are used. -/
theorem C87_given_partial {α : Type} (readJson : String → Except PyErr α) (m : α) (k : Option String) (f : String) :
    metadata (some m) k readJson = .ok m ∧ metadata none (some f) readJson = readJson f := ⟨rfl, rfl⟩

/-! ## C88 -/

/-- **C88 is false of the code.** Converting posterior samples to effective precession never succeeds, whatever the catalogue. -/
theorem C88_chip_fails (iso : ℝ → ℝ → Except PyErr F) (joint : ℝ → ℝ → ℝ → Except PyErr F) {ps : List String} (hps : "chi_p" ∈ ps)
    (events : List (List SpinSample)) (n : ℕ) :
    ∃ e, convertPE iso joint ps events n = .error e ∧
      ((∀ y x q, ∃ v, joint y x q = .ok v) → e = .valueError) := by
  unfold convertPE
  rw [if_pos hps]
  have hch : chipArrayPE events.length n = .error .valueError := by
    unfold chipArrayPE
    split
    · rfl
    · simp
  cases h : mapE (mapE (chipSample joint)) events with
  | error e =>
    refine ⟨e, rfl, fun hj => ?_⟩
    exfalso
    have hs : ∀ r, ∃ t, chipSample joint r = .ok t := by
      intro r
      obtain ⟨v, hv⟩ := hj (chip r.q r.a1 r.a2 r.ct1 r.ct2) (chieff r.q r.a1 r.a2 r.ct1 r.ct2) r.q
      exact ⟨_, by unfold chipSample; simp only [hv]; rfl⟩
    have tot : ∀ {α β : Type} (f : α → Except PyErr β), (∀ a, ∃ b, f a = .ok b) → ∀ l, ∃ bs, mapE f l = .ok bs := by
      intro α β f hf l
      induction l with
      | nil => exact ⟨[], rfl⟩
      | cons a l ih =>
        obtain ⟨b, hb⟩ := hf a
        obtain ⟨bs, hbs⟩ := ih
        exact ⟨b :: bs, by simp only [mapE, hb, hbs]⟩
    obtain ⟨bs, hbs⟩ := tot _ (tot _ hs) events
    rw [hbs] at h; cases h
  | ok l => exact ⟨.valueError, by simp only [hch], fun _ => rfl⟩

/-! ## C89 -/

theorem setdiff_mem {α : Type} (cols : PyDict α) (ps : List String) (k : String) :
    k ∈ (cols.keys.filter fun k => decide (k ∉ ps)) ++ (ps.dedup.filter fun k => decide (k ∉ cols.keys)) ↔
      (k ∈ cols.keys ∧ k ∉ ps) ∨ (k ∈ ps ∧ k ∉ cols.keys) := by
  simp [List.mem_filter]

/-- **C89.** When every requested parameter exists and `prior` is not among them, exactly the requested rows and the prior row are
returned, unchanged and in the original order. -/
theorem C89_rows {α : Type} {cols : PyDict α} {ps : List String} (hnd : cols.keys.Nodup) (hsub : ∀ k ∈ ps, k ∈ cols.keys)
    (hpr : "prior" ∈ cols.keys) (hps : "prior" ∉ ps) :
    keepParams cols ps = .ok (cols.filter fun c => decide (c.1 ∈ ps ∨ c.1 = "prior")) := by
  have hd : (ps.dedup.filter fun k => decide (k ∉ cols.keys)) = [] := by
    rw [List.filter_eq_nil_iff]; intro k hk; simpa using hsub k (List.mem_dedup.1 hk)
  unfold keepParams
  simp only [hd, List.append_nil]
  have hmem : "prior" ∈ cols.keys.filter fun k => decide (k ∉ ps) := List.mem_filter.2 ⟨hpr, by simpa using hps⟩
  rw [if_neg (not_not.2 hmem)]
  have hnd' : (cols.keys.filter fun k => decide (k ∉ ps)).Nodup := hnd.filter _
  have hfind : ((cols.keys.filter fun k => decide (k ∉ ps)).erase "prior").find? (fun k => decide (k ∉ cols.keys)) = none := by
    rw [List.find?_eq_none]
    intro k hk
    have := (List.mem_filter.1 (List.mem_of_mem_erase hk)).1
    simpa using this
  rw [hfind]
  simp only [Except.ok.injEq]
  refine List.filter_congr fun c hc => ?_
  have hck : c.1 ∈ cols.keys := List.mem_map.2 ⟨c, hc, rfl⟩
  rw [decide_eq_decide, hnd'.mem_erase_iff, List.mem_filter]
  simp only [decide_eq_true_eq, not_and, not_not]
  constructor
  · intro h
    by_cases hp : c.1 = "prior"
    · exact .inr hp
    · exact .inl (h hp hck)
  · rintro (h | h) h1 _
    · exact h
    · exact absurd h h1

/-- **C89.** A requested name that does not exist is an error, and so is requesting `prior` itself. -/
theorem C89_errors {α : Type} {cols : PyDict α} {ps : List String} (hpr : "prior" ∈ cols.keys) :
    ("prior" ∈ ps → keepParams cols ps = .error .valueError) ∧
    ("prior" ∉ ps → (∃ k ∈ ps, k ∉ cols.keys) → ∃ k, k ∈ ps ∧ k ∉ cols.keys ∧ keepParams cols ps = .error (.keyError k)) := by
  constructor
  · intro h
    unfold keepParams
    have : "prior" ∉ (cols.keys.filter fun k => decide (k ∉ ps)) ++ (ps.dedup.filter fun k => decide (k ∉ cols.keys)) := by
      rw [setdiff_mem]; simp [h, hpr]
    simp only [this, not_false_eq_true, if_true]
  · rintro h ⟨k, hk, hkc⟩
    unfold keepParams
    have hm : "prior" ∈ (cols.keys.filter fun k => decide (k ∉ ps)) ++ (ps.dedup.filter fun k => decide (k ∉ cols.keys)) := by
      rw [setdiff_mem]; exact .inl ⟨hpr, h⟩
    simp only [hm, not_true_eq_false, if_false]
    cases hf : (((cols.keys.filter fun k => decide (k ∉ ps)) ++ (ps.dedup.filter fun k => decide (k ∉ cols.keys))).erase "prior").find?
        (fun k => decide (k ∉ cols.keys)) with
    | none =>
      rw [List.find?_eq_none] at hf
      have hne : k ≠ "prior" := fun h' => h (h' ▸ hk)
      have := hf k ((List.mem_erase_of_ne hne).2 ((setdiff_mem _ _ _).2 (.inr ⟨hk, hkc⟩)))
      simp [hkc] at this
    | some k' =>
      have h1 := List.find?_some hf
      have h2 := List.mem_of_find?_eq_some hf
      have hk' : k' ∉ cols.keys := by simpa using h1
      rcases (setdiff_mem _ _ _).1 (List.mem_of_mem_erase h2) with h3 | h3
      · exact absurd h3.1 hk'
      · exact ⟨k', h3.1, hk', rfl⟩

/-! ## C68 -/

/-- **C68 is false of the code** whenever an ignored event is in the catalogue: the reported number of events is larger than the
number of events in every returned array. -/
theorem C68_ignored_fails {f : PEFile} (hf : ∀ c ∈ f.cols, c.2.length = f.events.length) {ig : List String} {ev : String}
    (h1 : ev ∈ ig) (h2 : ev ∈ f.events) :
    ∀ c ∈ (loadPE f (some ig)).1, c.2.length < (loadPE f (some ig)).2 := by
  intro c hc
  obtain ⟨c0, h0, rfl⟩ := List.mem_map.1 hc
  simp only [loadPE, dropEvents, List.length_map]
  have hl := hf c0 h0
  have : (List.zip f.events c0.2).length = f.events.length := by rw [List.length_zip, hl, min_self]
  rw [← this]
  rw [List.length_filter_lt_length_iff_exists]
  obtain ⟨i, hi, rfl⟩ := List.mem_iff_getElem.1 h2
  refine ⟨(f.events[i], c0.2[i]'(by omega)), ?_, by simpa using h1⟩
  rw [← List.getElem_zip (h := by omega)]
  exact List.getElem_mem _

/-- **C68, partial.** Without ignored events in the catalogue the number is right. -/
theorem C68_count_partial {f : PEFile} (hf : ∀ c ∈ f.cols, c.2.length = f.events.length) {ig : Option (List String)}
    (h : ∀ l, ig = some l → ∀ ev ∈ l, ev ∉ f.events) :
    (loadPE f ig).2 = f.events.length ∧ ∀ c ∈ (loadPE f ig).1, c.2.length = (loadPE f ig).2 := by
  refine ⟨rfl, ?_⟩
  cases ig with
  | none => exact fun c hc => hf c hc
  | some l =>
    intro c hc
    obtain ⟨c0, h0, rfl⟩ := List.mem_map.1 hc
    simp only [loadPE, dropEvents, List.length_map]
    rw [List.filter_eq_self.2, List.length_zip, hf c0 h0, min_self]
    intro p hp
    have := (List.of_mem_zip hp).1
    simp only [decide_eq_true_eq]
    exact fun hpl => h l rfl p.1 hpl this

/-- **C68 (alignment).** Every returned array contains, in the original order, the rows of exactly the events that are not
ignored — the same events for every parameter. -/
theorem C68_aligned {f : PEFile} (hf : ∀ c ∈ f.cols, c.2.length = f.events.length) (ig : List String) :
    (loadPE f (some ig)).1 = f.cols.map fun c =>
      (c.1, ((List.range f.events.length).filter fun i => decide (f.events.getD i "" ∉ ig)).map fun i => c.2.getD i []) := by
  simp only [loadPE]
  refine List.map_congr_left fun c hc => ?_
  have hl := hf c hc
  have hz : List.zip f.events c.2 = (List.range f.events.length).map fun i => (f.events.getD i "", c.2.getD i []) := by
    apply List.ext_getElem
    · simp [hl]
    · intro i h1 h2
      have hi : i < f.events.length := by simpa using h2
      simp [List.getD_eq_getElem?_getD, List.getElem?_eq_getElem hi, List.getElem?_eq_getElem (hl ▸ hi : i < c.2.length)]
  simp only [dropEvents, hz, List.filter_map, List.map_map, Function.comp_def]

/-! ### concrete cases -/

/-- one processed event with two samples -/
def demoData : EvData := ⟨[("mass_1", [30, 35]), ("redshift", [0.2, 2.5])], 2, "comoving"⟩

example : ∃ s0 out, init planck2015LVK 10 0.001 = .ok s0 ∧ appendPrior (s0.run []) [("GW1", demoData)] ["redshift", "mass_1"] = .ok out := by
  obtain ⟨s0, hs⟩ := (C52_constructor planck2015LVK 10 0.001).1 planck_flat.2.flat
  obtain ⟨_, pe, pc, out, h⟩ := C84_rows planck_flat.2 (by norm_num) (by norm_num) hs [] (by simp) ["redshift", "mass_1"]
    (cat := [("GW1", demoData)]) (by simp) (fun _ j => if j = 0 then 0.2 else 2.5) (fun _ j => if j = 0 then 30 else 35)
    (by simp [demoData, PyDict.get?, List.range_succ]) (by simp [demoData, PyDict.get?, List.range_succ]) (by simp [demoData])
  exact ⟨s0, out, hs, h.2.1⟩

-- two samples with the same mass ratio and effective spin and different spin magnitudes (C86_density_fails)
example : let r : SpinSample := ⟨1, 1 / 2, 1 / 2, 0, 0, 1⟩; let r' : SpinSample := ⟨1, 1 / 4, 1 / 4, 0, 0, 1⟩
    r'.q = r.q ∧ r'.prior = r.prior ∧
      (r'.a1 * r'.ct1 + r'.q * r'.a2 * r'.ct2) / (1 + r'.q) = (r.a1 * r.ct1 + r.q * r.a2 * r.ct2) / (1 + r.q) ∧
      r.a1 * r.a2 ≠ r'.a1 * r'.a2 := by norm_num

-- `4π a1 a2 ≠ 1` at a1 = a2 = 1 (C86_injection_fails)
example : 4 * Real.pi * ((1 : ℝ) * 1) ≠ 1 := by have := Real.two_le_pi; intro h; linarith

example : keepParams [("mass_1", 1), ("redshift", 2), ("prior", 3)] ["mass_1"] = .ok [("mass_1", 1), ("prior", 3)] := by
  rw [C89_rows (by decide) (by decide) (by decide) (by decide)]; simp

-- a catalogue of three events, one of them ignored (C68)
example : (loadPE ⟨["A", "B", "C"], [("m", [[1], [2], [3]])]⟩ (some ["B"])) = ([("m", [[1], [3]])], 3) := by
  simp [loadPE, dropEvents]

end GW
end
