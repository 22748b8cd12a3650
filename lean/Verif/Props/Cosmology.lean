import Verif.Model.Cosmology
import Verif.Lemmas.Interp
import Mathlib.Analysis.SpecialFunctions.Pow.NNReal
import Mathlib.MeasureTheory.Integral.IntervalIntegral.Basic
import Mathlib.MeasureTheory.Integral.IntervalIntegral.FundThmCalculus
import Mathlib.Analysis.Real.Sqrt

/-!
# C52–C57: the cosmology object

Specification: `Flat p` is what a caller supplies (positive Hubble constant, non-negative matter and radiation, flat);
`exactDc` is the textbook integral.
-/

noncomputable section
open Classical MeasureTheory
namespace GW.Cosmo
open F

/-- a flat cosmology with positive Hubble constant and non-negative matter and radiation densities -/
structure Flat (p : Par) : Prop where
  Ho : 0 < p.Ho
  matter : 0 ≤ p.OmegaMatter
  radiation : 0 ≤ p.OmegaRadiation
  flat : p.OmegaMatter + p.OmegaRadiation + p.OmegaLambda = 1

/-- `c / (H0 E(z))`, `E² = ΩΛ + ΩM (1+z)³ + ΩR (1+z)⁴` -/
def hubble (p : Par) (z : ℝ) : ℝ :=
  299792458 / (p.Ho * √(p.OmegaLambda + p.OmegaMatter * (1 + z) ^ 3 + p.OmegaRadiation * (1 + z) ^ 4))

/-- the line-of-sight comoving distance -/
def exactDc (p : Par) (z : ℝ) : ℝ := ∫ x in (0 : ℝ)..z, hubble p x

/-- calls with admissible arguments: positive steps, `extend` to a positive redshift -/
def Op.Ok : Op → Prop
  | .extend max_z dz => 0 < max_z ∧ 0 < dz
  | .z2Dc _ dz => 0 < dz
  | .z2DL _ dz => 0 < dz
  | .DL2z _ => True
  | .dVcdz _ _ dz => 0 < dz
  | .logdVcdz _ _ dz => 0 < dz

theorem planck_flat : Flat planck2015 ∧ Flat planck2015LVK := by
  constructor <;> constructor <;> norm_num [planck2015, planck2015LVK]

/-! ### the integrand -/

theorem dDcdz_eq {p : Par} (h : Flat p) (z : ℝ) : p.dDcdz z = hubble p z := by
  have hk : p.OmegaKappa = 0 := by unfold Par.OmegaKappa; linarith [h.flat]
  unfold Par.dDcdz Par.z2E Par.c_over_Ho hubble C_SI
  simp only [hk, zero_mul, add_zero]
  rw [Real.sqrt_eq_rpow, div_div]; norm_num

def g (p : Par) (z : ℝ) : ℝ := p.OmegaLambda + p.OmegaMatter * (1 + z) ^ 3 + p.OmegaRadiation * (1 + z) ^ 4

theorem g_mono {p : Par} (h : Flat p) {a b : ℝ} (ha : 0 ≤ a) (hab : a ≤ b) : g p a ≤ g p b := by
  unfold g
  have h3 : (1 + a) ^ 3 ≤ (1 + b) ^ 3 := pow_le_pow_left₀ (by linarith) (by linarith) 3
  have h4 : (1 + a) ^ 4 ≤ (1 + b) ^ 4 := pow_le_pow_left₀ (by linarith) (by linarith) 4
  have := mul_le_mul_of_nonneg_left h3 h.matter
  have := mul_le_mul_of_nonneg_left h4 h.radiation
  linarith

theorem g_pos {p : Par} (h : Flat p) {a : ℝ} (ha : 0 ≤ a) : 0 < g p a := by
  have := g_mono h le_rfl ha
  have h0 : g p 0 = 1 := by unfold g; linarith [h.flat]
  linarith

theorem hubble_pos {p : Par} (h : Flat p) {z : ℝ} (hz : 0 ≤ z) : 0 < hubble p z :=
  div_pos (by norm_num) (mul_pos h.Ho (Real.sqrt_pos.2 (g_pos h hz)))

theorem hubble_anti {p : Par} (h : Flat p) {a b : ℝ} (ha : 0 ≤ a) (hab : a ≤ b) : hubble p b ≤ hubble p a := by
  unfold hubble
  refine div_le_div_of_nonneg_left (by norm_num) (mul_pos h.Ho (Real.sqrt_pos.2 (g_pos h ha))) ?_
  exact mul_le_mul_of_nonneg_left (Real.sqrt_le_sqrt (g_mono h ha hab)) h.Ho.le

theorem hubble_intble {p : Par} (h : Flat p) {a b : ℝ} (ha : 0 ≤ a) (hab : a ≤ b) :
    IntervalIntegrable (hubble p) volume a b := by
  apply AntitoneOn.intervalIntegrable
  rw [Set.uIcc_of_le hab]
  intro x hx y _ hxy
  exact hubble_anti h (ha.trans hx.1) hxy

theorem hubble_int_bounds {p : Par} (h : Flat p) {a b c : ℝ} (ha : 0 ≤ a) (hab : a ≤ b) (hbc : b ≤ c) :
    (b - a) * hubble p c ≤ ∫ x in a..b, hubble p x ∧ ∫ x in a..b, hubble p x ≤ (b - a) * hubble p a := by
  constructor
  · have := intervalIntegral.integral_mono_on (f := fun _ => hubble p c) (g := hubble p) hab
      (by simp) (hubble_intble h ha hab) (fun x hx => hubble_anti h (ha.trans hx.1) (hx.2.trans hbc))
    simpa using this
  · have := intervalIntegral.integral_mono_on (g := fun _ => hubble p a) (f := hubble p) hab
      (hubble_intble h ha hab) (by simp) (fun x hx => hubble_anti h ha hx.1)
    simpa using this

theorem exactDc_split {p : Par} (h : Flat p) {a b : ℝ} (ha : 0 ≤ a) (hab : a ≤ b) :
    exactDc p b = exactDc p a + ∫ x in a..b, hubble p x := by
  unfold exactDc
  rw [intervalIntegral.integral_add_adjacent_intervals (hubble_intble h le_rfl ha) (hubble_intble h ha hab)]

/-! ### the loop fills the tables with the trapezoid sums -/

/-- trapezoid sum of the distance integrand after `i` steps -/
def trapD (p : Par) (dz : ℝ) : ℕ → ℝ
  | 0 => 0
  | i + 1 => trapD p dz i + (p.dDcdz (i * dz) + p.dDcdz ((i + 1) * dz)) / 2 * dz

/-- the same for the volume -/
def trapV (p : Par) (dz : ℝ) : ℕ → ℝ
  | 0 => 0
  | i + 1 => trapV p dz i +
      (p.dVcdzAt (i * dz) (trapD p dz i) + p.dVcdzAt ((i + 1) * dz) (trapD p dz (i + 1))) / 2 * dz

theorem loop_spec (p : Par) (dz : ℝ) (k : ℕ) :
    let t := foriLoop p.update ⟨fun i => i * dz, fun _ => 0, fun _ => 0⟩ k
    (t.z = fun i : ℕ => (i : ℝ) * dz) ∧ (∀ i ≤ k, t.Dc i = trapD p dz i) ∧ (∀ i ≤ k, t.Vc i = trapV p dz i) := by
  induction k with
  | zero =>
    refine ⟨rfl, ?_, ?_⟩ <;> · intro i hi; obtain rfl : i = 0 := by omega
                               rfl
  | succ k ih =>
    obtain ⟨h1, h2, h3⟩ := ih
    have e1 : (((1 : ℕ) : ℝ) * dz - ((0 : ℕ) : ℝ) * dz) = dz := by simp
    have e2 : (k : ℝ) * dz + dz = (k + 1) * dz := by ring
    have hD : ∀ i ≤ k + 1, (foriLoop p.update ⟨fun i => i * dz, fun _ => 0, fun _ => 0⟩ (k + 1)).Dc i = trapD p dz i := by
      intro i hi
      simp only [foriLoop, Par.update, h1, e1, e2]
      rcases Nat.lt_or_ge i (k + 1) with hi' | hi'
      · rw [Function.update_of_ne (by omega)]; exact h2 i (by omega)
      · obtain rfl : i = k + 1 := by omega
        rw [Function.update_self, h2 k le_rfl]
        simp only [trapD]; ring
    refine ⟨by simp only [foriLoop, Par.update, h1], hD, ?_⟩
    intro i hi
    have hD1 := hD (k + 1) le_rfl
    simp only [foriLoop, Par.update, h1, e1, e2, Function.update_self] at hD1
    simp only [foriLoop, Par.update, h1, e1, e2, Function.update_self]
    rcases Nat.lt_or_ge i (k + 1) with hi' | hi'
    · rw [Function.update_of_ne (by omega)]; exact h3 i (by omega)
    · obtain rfl : i = k + 1 := by omega
      rw [Function.update_self, h3 k le_rfl, hD1, h2 k le_rfl]
      simp only [trapV]; ring

/-- a table of `n ≥ 1` rows with spacing `dz` -/
structure IsTab (s : Obj) (p : Par) (n : ℕ) (dz : ℝ) : Prop where
  par : s.par = p
  len : s.n = n
  pos : 0 < n
  step : 0 < dz
  z : ∀ i, s.tab.z i = i * dz
  Dc : ∀ i < n, s.tab.Dc i = trapD p dz i
  Vc : ∀ i < n, s.tab.Vc i = trapV p dz i

theorem extend_isTab (s : Obj) {max_z dz : ℝ} (hm : 0 < max_z) (hd : 0 < dz) :
    IsTab (s.extend max_z dz) s.par ⌈max_z / dz⌉₊ dz := by
  have hn : 0 < ⌈max_z / dz⌉₊ := Nat.ceil_pos.2 (div_pos hm hd)
  obtain ⟨h1, h2, h3⟩ := loop_spec s.par dz (⌈max_z / dz⌉₊ - 1)
  exact ⟨rfl, rfl, hn, hd, fun i => congrFun h1 i, fun i hi => h2 i (by omega), fun i hi => h3 i (by omega)⟩

/-! ### maxima -/

theorem foldl_max_le {l : List ℝ} {a b : ℝ} (ha : a ≤ b) (h : ∀ x ∈ l, x ≤ b) : l.foldl max a ≤ b := by
  induction l generalizing a with
  | nil => exact ha
  | cons x l ih => exact ih (max_le ha (h x (by simp))) fun y hy => h y (by simp [hy])

theorem le_foldl_max {l : List ℝ} {a : ℝ} : a ≤ l.foldl max a ∧ ∀ x ∈ l, x ≤ l.foldl max a := by
  induction l generalizing a with
  | nil => simp
  | cons x l ih =>
    have := ih (a := max a x)
    refine ⟨(le_max_left _ _).trans this.1, ?_⟩
    intro y hy
    rcases List.mem_cons.1 hy with rfl | hy
    · exact (le_max_right _ _).trans this.1
    · exact this.2 y hy

theorem foldl_max_mem {l : List ℝ} {a : ℝ} : l.foldl max a = a ∨ l.foldl max a ∈ l := by
  induction l generalizing a with
  | nil => simp
  | cons x l ih =>
    rcases ih (a := max a x) with h | h
    · rcases max_choice a x with h' | h'
      · left; simp only [List.foldl_cons]; rw [h, h']
      · right; simp only [List.foldl_cons]; rw [h, h']; simp
    · right; simp only [List.foldl_cons]; exact List.mem_cons_of_mem _ h

theorem maxList_ok {l : List ℝ} {m : ℝ} (h : maxList l = .ok m) : m ∈ l ∧ ∀ x ∈ l, x ≤ m := by
  cases l with
  | nil => simp [maxList] at h
  | cons x l =>
    simp only [maxList, Except.ok.injEq] at h
    subst h
    refine ⟨?_, ?_⟩
    · rcases foldl_max_mem (l := l) (a := x) with h | h
      · rw [h]; simp
      · exact List.mem_cons_of_mem _ h
    · intro y hy
      rcases List.mem_cons.1 hy with rfl | hy
      · exact le_foldl_max.1
      · exact le_foldl_max.2 y hy

theorem maxList_of {l : List ℝ} {m : ℝ} (hm : m ∈ l) (h : ∀ x ∈ l, x ≤ m) : maxList l = .ok m := by
  cases l with
  | nil => simp at hm
  | cons x l =>
    have hk := maxList_ok (l := x :: l) (m := l.foldl max x) rfl
    have : l.foldl max x = m := le_antisymm (h _ hk.1) (hk.2 _ hm)
    simp only [maxList, this]

theorem entries_max {n : ℕ} {a : ℕ → ℝ} (hn : 0 < n) (ha : IncOn n a) : maxList (entries n a) = .ok (a (n - 1)) := by
  apply maxList_of
  · exact List.mem_map.2 ⟨n - 1, List.mem_range.2 (by omega), rfl⟩
  · intro x hx
    obtain ⟨i, hi, rfl⟩ := List.mem_map.1 hx
    have := List.mem_range.1 hi
    exact ha.le (by omega) (by omega)

theorem IsTab.incz {s : Obj} {p : Par} {n : ℕ} {dz : ℝ} (h : IsTab s p n dz) (m : ℕ) : IncOn m s.tab.z := by
  intro i _
  rw [h.z, h.z]; push_cast; nlinarith [h.step]

/-- the three outcomes of covering a query -/
theorem cover_cases {s : Obj} {p : Par} {n : ℕ} {dz0 : ℝ} (h : IsTab s p n dz0) (z : List ℝ) (dz : ℝ) :
    (z = [] ∧ s.cover z dz = .error .valueError) ∨
    ∃ m, m ∈ z ∧ (∀ x ∈ z, x ≤ m) ∧
      s.cover z dz = .ok (if ((n - 1 : ℕ) : ℝ) * dz0 < m then s.extend m dz else s) := by
  cases z with
  | nil => left; exact ⟨rfl, rfl⟩
  | cons x l =>
    right
    obtain ⟨h1, h2⟩ := maxList_ok (l := x :: l) (m := l.foldl max x) rfl
    refine ⟨_, h1, h2, ?_⟩
    unfold Obj.cover
    rw [h.len, entries_max h.pos (h.incz _), h.z]
    rfl

theorem cover_isTab {s s' : Obj} {p : Par} {n : ℕ} {dz0 : ℝ} (h : IsTab s p n dz0) {z : List ℝ} {dz : ℝ} (hd : 0 < dz)
    (hc : s.cover z dz = .ok s') : s' = s ∨ ∃ m ∈ z, ((n - 1 : ℕ) : ℝ) * dz0 < m ∧ s' = s.extend m dz ∧
      IsTab s' p ⌈m / dz⌉₊ dz := by
  rcases cover_cases h z dz with ⟨_, he⟩ | ⟨m, hm, _, he⟩
  · rw [he] at hc; cases hc
  · rw [he] at hc
    by_cases hlt : ((n - 1 : ℕ) : ℝ) * dz0 < m
    · rw [if_pos hlt] at hc
      obtain rfl := (Except.ok.inj hc).symm
      right
      have hmpos : 0 < m := lt_of_le_of_lt (mul_nonneg (Nat.cast_nonneg _) h.step.le) hlt
      have := extend_isTab s hmpos hd
      rw [h.par] at this
      exact ⟨m, hm, hlt, rfl, this⟩
    · rw [if_neg hlt] at hc
      left; exact (Except.ok.inj hc).symm

theorem z2Dc_state {s : Obj} {p : Par} {n : ℕ} {dz0 : ℝ} (h : IsTab s p n dz0) (z : List ℝ) {dz : ℝ} (hd : 0 < dz) :
    ∃ n' dz', IsTab (s.z2Dc z dz).1 p n' dz' := by
  unfold Obj.z2Dc
  cases hc : s.cover z dz with
  | error e => exact ⟨n, dz0, h⟩
  | ok s' =>
    rcases cover_isTab h hd hc with rfl | ⟨m, _, _, _, h'⟩
    · exact ⟨n, dz0, h⟩
    · exact ⟨_, _, h'⟩

theorem z2DL_state {s : Obj} {p : Par} {n : ℕ} {dz0 : ℝ} (h : IsTab s p n dz0) (z : List ℝ) {dz : ℝ} (hd : 0 < dz) :
    ∃ n' dz', IsTab (s.z2DL z dz).1 p n' dz' := by
  unfold Obj.z2DL
  cases hc : s.cover z dz with
  | error e => exact ⟨n, dz0, h⟩
  | ok s' =>
    rcases cover_isTab h hd hc with rfl | ⟨m, _, _, _, h'⟩
    · exact ⟨n, dz0, h⟩
    · exact ⟨_, _, h'⟩

theorem DL2z_state (s : Obj) (d : List ℝ) : (s.DL2z d).1 = s := by
  unfold Obj.DL2z
  cases maxList d with
  | error e => rfl
  | ok m =>
    cases maxList (entries s.n s.DL) with
    | error e => rfl
    | ok t => simp only []; split <;> rfl

theorem step_state {s : Obj} {p : Par} {n : ℕ} {dz0 : ℝ} (h : IsTab s p n dz0) (op : Op) (ho : op.Ok) :
    ∃ n' dz', IsTab (s.step op) p n' dz' := by
  cases op with
  | extend m dz => have := extend_isTab s ho.1 ho.2; rw [h.par] at this; exact ⟨_, _, this⟩
  | z2Dc z dz => exact z2Dc_state h z ho
  | z2DL z dz => exact z2DL_state h z ho
  | DL2z d => exact ⟨n, dz0, by simp only [Obj.step]; rw [DL2z_state]; exact h⟩
  | dVcdz z Dc dz =>
    cases Dc with
    | none => exact z2Dc_state h z ho
    | some d => exact ⟨n, dz0, h⟩
  | logdVcdz z Dc dz =>
    cases Dc with
    | none => exact z2Dc_state h z ho
    | some d => exact ⟨n, dz0, h⟩

/-- every reachable object carries a trapezoid table -/
theorem run_state {p : Par} {max_z dz : ℝ} (hm : 0 < max_z) (hd : 0 < dz) {s : Obj} (hs : init p max_z dz = .ok s)
    (hist : List Op) (hh : ∀ op ∈ hist, op.Ok) : ∃ n dz', IsTab (s.run hist) p n dz' := by
  have h0 : IsTab s p ⌈max_z / dz⌉₊ dz := by
    unfold init at hs
    split at hs
    · obtain rfl := (Except.ok.inj hs).symm
      exact extend_isTab _ hm hd
    · cases hs
  have key : ∀ (hist : List Op) (s : Obj), (∃ n dz', IsTab s p n dz') → (∀ op ∈ hist, op.Ok) →
      ∃ n dz', IsTab (s.run hist) p n dz' := by
    intro hist
    induction hist with
    | nil => intro s h _; exact h
    | cons op l ih =>
      rintro s ⟨n, dz', h⟩ ho
      exact ih _ (step_state h op (ho op (by simp))) fun o h' => ho o (by simp [h'])
  exact key hist s ⟨_, _, h0⟩ hh

/-! ### monotone tables -/

theorem trapD_succ_lt {p : Par} (h : Flat p) {dz : ℝ} (hd : 0 < dz) (i : ℕ) : trapD p dz i < trapD p dz (i + 1) := by
  simp only [trapD, dDcdz_eq h]
  have h1 := hubble_pos h (mul_nonneg (Nat.cast_nonneg i) hd.le)
  have h2 := hubble_pos h (z := ((i : ℝ) + 1) * dz) (by positivity)
  have : 0 < (hubble p (i * dz) + hubble p ((i + 1) * dz)) / 2 * dz := by positivity
  linarith

theorem trapD_strict {p : Par} (h : Flat p) {dz : ℝ} (hd : 0 < dz) : StrictMono (trapD p dz) :=
  strictMono_nat_of_lt_succ (trapD_succ_lt h hd)

theorem trapD_nonneg {p : Par} (h : Flat p) {dz : ℝ} (hd : 0 < dz) (i : ℕ) : 0 ≤ trapD p dz i := by
  have := (trapD_strict h hd).monotone (Nat.zero_le i); simpa [trapD] using this

theorem trapV_strict {p : Par} (h : Flat p) {dz : ℝ} (hd : 0 < dz) : StrictMono (trapV p dz) := by
  refine strictMono_nat_of_lt_succ fun i => ?_
  have hp := trapD_nonneg h hd i
  have hlt := trapD_succ_lt h hd i
  have h1 := hubble_pos h (mul_nonneg (Nat.cast_nonneg i) hd.le)
  have h2 := hubble_pos h (z := ((i : ℝ) + 1) * dz) (by positivity)
  have e : trapV p dz (i + 1) = trapV p dz i +
      (p.dVcdzAt (i * dz) (trapD p dz i) + p.dVcdzAt ((i + 1) * dz) (trapD p dz (i + 1))) / 2 * dz := rfl
  rw [e]
  have a : 0 ≤ p.dVcdzAt (i * dz) (trapD p dz i) := by
    unfold Par.dVcdzAt; rw [dDcdz_eq h]; have := Real.pi_pos; positivity
  have b : 0 < p.dVcdzAt ((i + 1) * dz) (trapD p dz (i + 1)) := by
    unfold Par.dVcdzAt; rw [dDcdz_eq h]; have := Real.pi_pos
    have : 0 < trapD p dz (i + 1) := by linarith
    positivity
  have : 0 < (p.dVcdzAt (i * dz) (trapD p dz i) + p.dVcdzAt ((i + 1) * dz) (trapD p dz (i + 1))) / 2 * dz := by positivity
  linarith

theorem IsTab.incD {s : Obj} {p : Par} {n : ℕ} {dz : ℝ} (h : IsTab s p n dz) (hf : Flat p) : IncOn n s.tab.Dc := by
  intro i hi
  rw [h.Dc i (by omega), h.Dc (i + 1) hi]; exact trapD_succ_lt hf h.step i

theorem IsTab.incDL {s : Obj} {p : Par} {n : ℕ} {dz : ℝ} (h : IsTab s p n dz) (hf : Flat p) : IncOn n s.DL := by
  intro i hi
  unfold Obj.DL
  rw [h.Dc i (by omega), h.Dc (i + 1) hi, h.z, h.z]
  have h1 := trapD_succ_lt hf h.step i
  have h2 := trapD_nonneg hf h.step i
  have h3 := h.step
  have h4 : (0 : ℝ) ≤ i * dz := by positivity
  push_cast
  nlinarith [mul_nonneg h2 h3.le, mul_nonneg (sub_nonneg.2 h1.le) h4, mul_nonneg (sub_nonneg.2 h1.le) h3.le]

/-- **C52.** After construction and any history of calls (with positive steps) the redshift, comoving distance, comoving
volume and luminosity distance tables start at zero and are strictly increasing. -/
theorem C52_tables_increasing {p : Par} (hf : Flat p) {max_z dz : ℝ} (hm : 0 < max_z) (hd : 0 < dz) {s : Obj}
    (hs : init p max_z dz = .ok s) (hist : List Op) (hh : ∀ op ∈ hist, op.Ok) :
    let t := s.run hist
    0 < t.n ∧ t.tab.z 0 = 0 ∧ t.tab.Dc 0 = 0 ∧ t.tab.Vc 0 = 0 ∧ t.DL 0 = 0 ∧
    ∀ i j, i < j → j < t.n →
      t.tab.z i < t.tab.z j ∧ t.tab.Dc i < t.tab.Dc j ∧ t.tab.Vc i < t.tab.Vc j ∧ t.DL i < t.DL j := by
  obtain ⟨n, dz', h⟩ := run_state hm hd hs hist hh
  intro t
  have hD0 : t.tab.Dc 0 = 0 := h.Dc 0 h.pos
  refine ⟨h.len ▸ h.pos, by rw [h.z]; simp, hD0, h.Vc 0 h.pos, by unfold Obj.DL; rw [hD0, zero_mul], ?_⟩
  intro i j hij hj
  have hj' : j < n := h.len ▸ hj
  refine ⟨(h.incz n).lt hij hj', (h.incD hf).lt hij hj', ?_, (h.incDL hf).lt hij hj'⟩
  rw [h.Vc i (by omega), h.Vc j hj']; exact trapV_strict hf h.step hij

/-- the constructor accepts every flat cosmology, and rejects every other -/
theorem C52_constructor (p : Par) (max_z dz : ℝ) :
    (p.OmegaMatter + p.OmegaRadiation + p.OmegaLambda = 1 → ∃ s, init p max_z dz = .ok s) ∧
    (p.OmegaMatter + p.OmegaRadiation + p.OmegaLambda ≠ 1 → init p max_z dz = .error .assertionError) := by
  constructor
  · intro h
    have : p.OmegaKappa = 0 := by unfold Par.OmegaKappa; linarith
    exact ⟨_, by unfold init; rw [if_pos this]⟩
  · intro h
    have : p.OmegaKappa ≠ 0 := by unfold Par.OmegaKappa; intro hc; exact h (by linarith)
    unfold init; rw [if_neg this]

example : ∃ s, init planck2015 10 0.001 = .ok s ∧ 2 ≤ s.n := by
  obtain ⟨s, hs⟩ := (C52_constructor planck2015 10 0.001).1 planck_flat.1.flat
  refine ⟨s, hs, ?_⟩
  unfold init at hs
  split at hs
  · obtain rfl := (Except.ok.inj hs).symm
    show 2 ≤ ⌈(10 : ℝ) / 0.001⌉₊
    have : (1 : ℝ) < 10 / 0.001 := by norm_num
    have := Nat.lt_ceil.2 (show ((1 : ℕ) : ℝ) < 10 / 0.001 by simpa using this)
    omega
  · cases hs
example : Op.Ok (.z2Dc [0.5, 20] 0.01) := by norm_num [Op.Ok]

/-! ### C53: error of the tables -/

theorem trapD_error {p : Par} (h : Flat p) {dz : ℝ} (hd : 0 < dz) (i : ℕ) :
    |trapD p dz i - exactDc p (i * dz)| ≤ dz / 2 * (hubble p 0 - hubble p (i * dz)) := by
  induction i with
  | zero => simp [trapD, exactDc]
  | succ i ih =>
    have ha : (0 : ℝ) ≤ i * dz := by positivity
    have hab : (i : ℝ) * dz ≤ (i + 1) * dz := by nlinarith
    obtain ⟨b1, b2⟩ := hubble_int_bounds h ha hab le_rfl
    rw [abs_le] at ih ⊢
    push_cast
    rw [exactDc_split h ha hab]
    simp only [trapD, dDcdz_eq h]
    have e : ((i : ℝ) + 1) * dz - i * dz = dz := by ring
    rw [e] at b1 b2
    constructor <;> nlinarith [ih.1, ih.2]

theorem interp_error {s : Obj} {p : Par} {n : ℕ} {dz : ℝ} (t : IsTab s p n dz) (h : Flat p) {x : ℝ} (h0 : 0 ≤ x)
    (hx : x ≤ ((n - 1 : ℕ) : ℝ) * dz) :
    |interp n s.tab.z s.tab.Dc x - exactDc p x| ≤ dz / 2 * hubble p 0 := by
  have hd := t.step
  by_cases hn : 2 ≤ n
  · obtain ⟨i, hi, h1, h2⟩ := exists_cell hn (xp := s.tab.z) (x := x) (by rw [t.z]; simpa using h0) (by rw [t.z]; exact hx)
    rw [interp_cell (t.incz n) hi h1 h2, t.Dc i (by omega), t.Dc (i + 1) hi]
    rw [t.z] at h1
    rw [t.z] at h2
    rw [t.z, t.z]
    push_cast at h2 ⊢
    have ha : (0 : ℝ) ≤ i * dz := by positivity
    obtain ⟨b1, b2⟩ := hubble_int_bounds h ha h1 h2
    have he := trapD_error h hd i
    have hp := hubble_pos h (z := ((i : ℝ) + 1) * dz) (by positivity)
    have hanti := hubble_anti h ha (show (i : ℝ) * dz ≤ (i + 1) * dz by nlinarith)
    rw [exactDc_split h ha h1]
    have e : ((i : ℝ) + 1) * dz - i * dz = dz := by ring
    have e2 : (x - i * dz) / dz * ((hubble p (i * dz) + hubble p ((i + 1) * dz)) / 2 * dz) =
        (x - i * dz) * ((hubble p (i * dz) + hubble p ((i + 1) * dz)) / 2) := by
      field_simp
    simp only [trapD, dDcdz_eq h, add_sub_cancel_left]
    rw [e, e2]
    rw [abs_le] at he ⊢
    have hxd : x - i * dz ≤ dz := by linarith
    have hx0 : 0 ≤ x - i * dz := by linarith
    have k := mul_le_mul_of_nonneg_right hxd (sub_nonneg.2 hanti)
    have k2 := mul_pos hd hp
    constructor <;> nlinarith [he.1, he.2]
  · obtain rfl : n = 1 := by have := t.pos; omega
    have hx0 : x = 0 := le_antisymm (by simpa using hx) h0
    subst hx0
    have : interp 1 s.tab.z s.tab.Dc 0 = 0 := by
      unfold interp
      have e : min (max (countLE 1 s.tab.z 0) 1) (1 - 1) = 0 := by omega
      simp only [e]
      simp [t.z, t.Dc 0 t.pos, trapD]
    rw [this]; simp only [exactDc, intervalIntegral.integral_same, sub_zero, abs_zero]
    have := hubble_pos h (z := 0) le_rfl
    positivity

/-- **C53.** Every tabulated comoving distance, after any history, is within `step/2 · (f(0) − f(z))` of the exact
integral, `f = c/(H0 E)`; `step` is the spacing of the table. -/
theorem C53_table_error {p : Par} (hf : Flat p) {max_z dz : ℝ} (hm : 0 < max_z) (hd : 0 < dz) {s : Obj}
    (hs : init p max_z dz = .ok s) (hist : List Op) (hh : ∀ op ∈ hist, op.Ok) :
    let t := s.run hist
    ∀ i < t.n, |t.tab.Dc i - exactDc p (t.tab.z i)| ≤
      (t.tab.z 1 - t.tab.z 0) / 2 * (hubble p 0 - hubble p (t.tab.z i)) := by
  obtain ⟨n, dz', h⟩ := run_state hm hd hs hist hh
  intro t i hi
  have := trapD_error hf h.step i
  rw [h.Dc i (h.len ▸ hi), h.z, h.z, h.z]
  simpa using this

/-- **C53**, between the nodes: the distance answered for a redshift inside the table is within `step/2 · c/H0` of the
exact integral. -/
theorem C53_query_error {p : Par} (hf : Flat p) {max_z dz : ℝ} (hm : 0 < max_z) (hd : 0 < dz) {s : Obj}
    (hs : init p max_z dz = .ok s) (hist : List Op) (hh : ∀ op ∈ hist, op.Ok) (x dz' : ℝ) :
    let t := s.run hist
    0 ≤ x → x ≤ t.tab.z (t.n - 1) →
    ∃ d, t.z2Dc [x] dz' = (t, .ok [d]) ∧ |d - exactDc p x| ≤ (t.tab.z 1 - t.tab.z 0) / 2 * (299792458 / p.Ho) := by
  obtain ⟨n, dz2, h⟩ := run_state hm hd hs hist hh
  intro t h0 hx
  have hx' : x ≤ ((n - 1 : ℕ) : ℝ) * dz2 := by rw [h.z, h.len] at hx; exact hx
  refine ⟨interp t.n t.tab.z t.tab.Dc x, ?_, ?_⟩
  · rcases cover_cases h [x] dz' with ⟨hc, _⟩ | ⟨m, hm', _, he⟩
    · cases hc
    · obtain rfl : m = x := by simpa using hm'
      rw [if_neg (not_lt.2 hx')] at he
      show Obj.z2Dc _ _ _ = _
      unfold Obj.z2Dc; rw [he]; rfl
  · have := interp_error h hf h0 hx'
    have e : hubble p 0 = 299792458 / p.Ho := by
      unfold hubble
      have : p.OmegaLambda + p.OmegaMatter * (1 + 0) ^ 3 + p.OmegaRadiation * (1 + 0) ^ 4 = 1 := by linarith [hf.flat]
      rw [this]; simp
    rw [e] at this
    rw [h.len, h.z, h.z]; simpa using this

/-! ### C54: inverse maps -/

theorem DL2z_inside {s : Obj} {p : Par} {n : ℕ} {dz : ℝ} (h : IsTab s p n dz) (hf : Flat p) {d : List ℝ} (hne : d ≠ [])
    (hd : ∀ x ∈ d, x ≤ s.DL (n - 1)) : s.DL2z d = (s, .ok (d.map fun x => interp n s.DL s.tab.z x)) := by
  obtain ⟨m, hm⟩ : ∃ m, maxList d = .ok m := by cases d with | nil => exact absurd rfl hne | cons x l => exact ⟨_, rfl⟩
  unfold Obj.DL2z
  rw [hm, h.len, entries_max h.pos (h.incDL hf)]
  simp only []
  rw [if_neg (not_lt.2 (hd m (maxList_ok hm).1))]

theorem z2DL_inside {s : Obj} {p : Par} {n : ℕ} {dz : ℝ} (h : IsTab s p n dz) {z : List ℝ} (dz' : ℝ) (hne : z ≠ [])
    (hz : ∀ x ∈ z, x ≤ s.tab.z (n - 1)) : s.z2DL z dz' = (s, .ok (z.map fun x => interp n s.tab.z s.DL x)) := by
  rcases cover_cases h z dz' with ⟨hc, _⟩ | ⟨m, hm', _, he⟩
  · exact absurd hc hne
  · have := hz m hm'; rw [h.z] at this
    rw [if_neg (not_lt.2 this)] at he
    unfold Obj.z2DL; rw [he]; simp only []; rw [h.len]

/-- **C54.** For redshifts inside the table, `DL2z` recovers the redshifts from their luminosity distances, and the other
way round; no call changes the object. -/
theorem C54_inverse {p : Par} (hf : Flat p) {max_z dz : ℝ} (hm : 0 < max_z) (hd : 0 < dz) {s : Obj}
    (hs : init p max_z dz = .ok s) (hist : List Op) (hh : ∀ op ∈ hist, op.Ok) (dz' : ℝ) (xs : List ℝ) (hne : xs ≠ []) :
    let t := s.run hist
    2 ≤ t.n →
    ((∀ x ∈ xs, 0 ≤ x ∧ x ≤ t.tab.z (t.n - 1)) →
      ∃ ds, t.z2DL xs dz' = (t, .ok ds) ∧ t.DL2z ds = (t, .ok xs)) ∧
    ((∀ x ∈ xs, 0 ≤ x ∧ x ≤ t.DL (t.n - 1)) →
      ∃ zs, t.DL2z xs = (t, .ok zs) ∧ t.z2DL zs dz' = (t, .ok xs)) := by
  obtain ⟨n, dz2, h⟩ := run_state hm hd hs hist hh
  intro t h2
  rw [h.len] at h2 ⊢
  have hz0 : t.tab.z 0 = 0 := by rw [h.z]; simp
  have hDL0 : t.DL 0 = 0 := by unfold Obj.DL; rw [h.Dc 0 h.pos]; simp [trapD]
  have iz := h.incz n
  have iD := h.incDL hf
  constructor
  · intro hx
    refine ⟨_, z2DL_inside h dz' hne fun x hx' => (hx x hx').2, ?_⟩
    rw [DL2z_inside h hf (by simpa using hne)]
    · rw [List.map_map]
      have : ∀ x ∈ xs, ((fun x => interp n t.DL t.tab.z x) ∘ fun x => interp n t.tab.z t.DL x) x = x := fun x hx' =>
        interp_inverse h2 iz iD (by rw [hz0]; exact (hx x hx').1) (hx x hx').2
      rw [List.map_congr_left this]; simp; rfl
    · intro y hy
      obtain ⟨x, hx', rfl⟩ := List.mem_map.1 hy
      obtain ⟨i, hi, a, b⟩ := exists_cell h2 (xp := t.tab.z) (by rw [hz0]; exact (hx x hx').1) (hx x hx').2
      exact (interp_cell_mem iz hi (iD i hi).le a b).2.trans (iD.le (by omega) (by omega))
  · intro hx
    refine ⟨_, DL2z_inside h hf hne fun x hx' => (hx x hx').2, ?_⟩
    rw [z2DL_inside h dz' (by simpa using hne)]
    · rw [List.map_map]
      have : ∀ x ∈ xs, ((fun x => interp n t.tab.z t.DL x) ∘ fun x => interp n t.DL t.tab.z x) x = x := fun x hx' =>
        interp_inverse h2 iD iz (by rw [hDL0]; exact (hx x hx').1) (hx x hx').2
      rw [List.map_congr_left this]; simp; rfl
    · intro y hy
      obtain ⟨x, hx', rfl⟩ := List.mem_map.1 hy
      obtain ⟨i, hi, a, b⟩ := exists_cell h2 (xp := t.DL) (by rw [hDL0]; exact (hx x hx').1) (hx x hx').2
      exact (interp_cell_mem iD hi (iz i hi).le a b).2.trans (iz.le (by omega) (by omega))

example : ∃ s, init planck2015 10 0.001 = .ok s ∧ 2 ≤ s.n ∧ ∀ x ∈ [(0.5 : ℝ), 2], 0 ≤ x ∧ x ≤ s.tab.z (s.n - 1) := by
  obtain ⟨s, hs⟩ := (C52_constructor planck2015 10 0.001).1 planck_flat.1.flat
  obtain ⟨n, dz, h⟩ := run_state (by norm_num) (by norm_num) hs [] (by simp)
  have hn : s.n = ⌈(10 : ℝ) / 0.001⌉₊ := by
    unfold init at hs
    split at hs
    · obtain rfl := (Except.ok.inj hs).symm; rfl
    · cases hs
  have hz : ∀ i, s.tab.z i = i * 0.001 := by
    unfold init at hs
    split at hs
    · obtain rfl := (Except.ok.inj hs).symm
      exact (extend_isTab _ (by norm_num) (by norm_num)).z
    · cases hs
  have hc : (10 : ℝ) / 0.001 = ((10000 : ℕ) : ℝ) := by norm_num
  rw [hc, Nat.ceil_natCast] at hn
  refine ⟨s, hs, by omega, ?_⟩
  rw [hz, hn]
  intro x hx
  rcases List.mem_cons.1 hx with rfl | hx
  · norm_num
  · obtain rfl : x = 2 := by simpa using hx
    norm_num

/-! ### C55: history independence -/

/-- a query made with step `dz` (no explicit `extend`) -/
def Op.Query (dz : ℝ) : Op → Prop
  | .extend _ _ => False
  | .z2Dc _ d => d = dz
  | .z2DL _ d => d = dz
  | .DL2z _ => True
  | .dVcdz _ _ d => d = dz
  | .logdVcdz _ _ d => d = dz

theorem interp_prefix {n n' : ℕ} (hn : 0 < n) (hnn : n ≤ n') {xp xp' fp fp' : ℕ → ℝ} (hx : IncOn n' xp')
    (hxx : ∀ i < n, xp i = xp' i) (hff : ∀ i < n, fp i = fp' i) {x : ℝ} (hl : x ≤ xp (n - 1)) :
    interp n xp fp x = interp n' xp' fp' x := by
  have hx' : IncOn n xp := fun i hi => by rw [hxx i (by omega), hxx (i + 1) hi]; exact hx i (by omega)
  rcases lt_or_ge x (xp 0) with h0 | h0
  · rw [interp_below h0, interp_below (by rw [← hxx 0 hn]; exact h0), hff 0 hn]
  · by_cases h2 : 2 ≤ n
    · obtain ⟨i, hi, h1, h3⟩ := exists_cell h2 h0 hl
      rw [interp_cell hx' hi h1 h3, interp_cell hx (i := i) (by omega) (by rw [← hxx i (by omega)]; exact h1)
        (by rw [← hxx (i + 1) hi]; exact h3), hxx i (by omega), hxx (i + 1) hi, hff i (by omega), hff (i + 1) hi]
    · obtain rfl : n = 1 := by omega
      obtain rfl : x = xp 0 := le_antisymm hl h0
      have e1 : interp 1 xp fp (xp 0) = fp 0 := by
        unfold interp
        have e : min (max (countLE 1 xp (xp 0)) 1) (1 - 1) = 0 := by omega
        simp only [e]; simp
      rw [e1, hff 0 hn]
      by_cases h2' : 2 ≤ n'
      · rw [hxx 0 hn, interp_node h2' hx (by omega)]
      · obtain rfl : n' = 1 := by omega
        unfold interp
        have e : min (max (countLE 1 xp' (xp 0)) 1) (1 - 1) = 0 := by omega
        simp only [e]; simp

theorem cover_same_step {s s' : Obj} {p : Par} {n : ℕ} {dz : ℝ} (h : IsTab s p n dz) {z : List ℝ}
    (hc : s.cover z dz = .ok s') : ∃ n', n ≤ n' ∧ IsTab s' p n' dz := by
  rcases cover_isTab h h.step hc with rfl | ⟨m, _, hlt, _, h'⟩
  · exact ⟨n, le_rfl, h⟩
  · refine ⟨_, ?_, h'⟩
    have : ((n - 1 : ℕ) : ℝ) < m / dz := by rw [lt_div_iff₀ h.step]; exact hlt
    have := Nat.lt_ceil.2 this
    have := h.pos
    omega

theorem z2Dc_same_step {s : Obj} {p : Par} {n : ℕ} {dz : ℝ} (h : IsTab s p n dz) (z : List ℝ) :
    ∃ n', n ≤ n' ∧ IsTab (s.z2Dc z dz).1 p n' dz := by
  unfold Obj.z2Dc
  cases hc : s.cover z dz with
  | error e => exact ⟨n, le_rfl, h⟩
  | ok s' => exact cover_same_step h hc

theorem query_state {s : Obj} {p : Par} {n : ℕ} {dz : ℝ} (h : IsTab s p n dz) (hist : List Op)
    (hh : ∀ op ∈ hist, op.Query dz) : ∃ n', n ≤ n' ∧ IsTab (s.run hist) p n' dz := by
  induction hist generalizing s n with
  | nil => exact ⟨n, le_rfl, h⟩
  | cons op l ih =>
    have key : ∃ n', n ≤ n' ∧ IsTab (s.step op) p n' dz := by
      have ho := hh op (by simp)
      cases op with
      | extend m d => exact ho.elim
      | z2Dc z d => obtain rfl : d = dz := ho; exact z2Dc_same_step h z
      | z2DL z d =>
        obtain rfl : d = dz := ho
        simp only [Obj.step, Obj.z2DL]
        cases hc : s.cover z d with
        | error e => exact ⟨n, le_rfl, h⟩
        | ok s' => exact cover_same_step h hc
      | DL2z d => exact ⟨n, le_rfl, by simp only [Obj.step]; rw [DL2z_state]; exact h⟩
      | dVcdz z Dc d =>
        obtain rfl : d = dz := ho
        cases Dc with
        | none => exact z2Dc_same_step h z
        | some _ => exact ⟨n, le_rfl, h⟩
      | logdVcdz z Dc d =>
        obtain rfl : d = dz := ho
        cases Dc with
        | none => exact z2Dc_same_step h z
        | some _ => exact ⟨n, le_rfl, h⟩
    obtain ⟨n', hn', h'⟩ := key
    obtain ⟨n'', hn'', h''⟩ := ih h' fun o ho => hh o (by simp [ho])
    exact ⟨n'', hn'.trans hn'', h''⟩

theorem init_isTab {p : Par} {max_z dz : ℝ} (hm : 0 < max_z) (hd : 0 < dz) {s : Obj} (hs : init p max_z dz = .ok s) :
    IsTab s p ⌈max_z / dz⌉₊ dz := by
  unfold init at hs
  split at hs
  · obtain rfl := (Except.ok.inj hs).symm
    exact extend_isTab _ hm hd
  · cases hs

theorem z2Dc_inside {s : Obj} {p : Par} {n : ℕ} {dz : ℝ} (h : IsTab s p n dz) {z : List ℝ} (dz' : ℝ) (hne : z ≠ [])
    (hz : ∀ x ∈ z, x ≤ s.tab.z (n - 1)) : s.z2Dc z dz' = (s, .ok (z.map fun x => interp n s.tab.z s.tab.Dc x)) := by
  rcases cover_cases h z dz' with ⟨hc, _⟩ | ⟨m, hm', _, he⟩
  · exact absurd hc hne
  · have := hz m hm'; rw [h.z] at this
    rw [if_neg (not_lt.2 this)] at he
    unfold Obj.z2Dc; rw [he]; simp only []; rw [h.len]

/-- **C55 (partial).** If every earlier call was a query with the constructor's step (no explicit `extend`), then distances
for redshifts covered by the *constructor's* table are the same as on a fresh object.  Missing: redshifts beyond that
table, other steps and explicit `extend` calls, for which the claim is false (`C55_history_fails`). -/
theorem C55_query_partial {p : Par} {max_z dz : ℝ} (hm : 0 < max_z) (hd : 0 < dz) {s : Obj}
    (hs : init p max_z dz = .ok s) (hist : List Op) (hh : ∀ op ∈ hist, op.Query dz) (dz' : ℝ) (xs : List ℝ)
    (hx : ∀ x ∈ xs, x ≤ s.tab.z (s.n - 1)) :
    ((s.run hist).z2Dc xs dz').2 = (s.z2Dc xs dz').2 ∧ ((s.run hist).z2DL xs dz').2 = (s.z2DL xs dz').2 := by
  have h0 := init_isTab hm hd hs
  obtain ⟨n', hn', h'⟩ := query_state h0 hist hh
  rcases eq_or_ne xs [] with rfl | hne
  · exact ⟨rfl, rfl⟩
  rw [h0.len] at hx
  generalize ⌈max_z / dz⌉₊ = n at *
  have hx' : ∀ x ∈ xs, x ≤ (s.run hist).tab.z (n' - 1) := by
    intro x hxm
    refine (hx x hxm).trans ?_
    rw [h0.z, h'.z]
    refine mul_le_mul_of_nonneg_right ?_ hd.le
    exact_mod_cast (show n - 1 ≤ n' - 1 by omega)
  have hDc : ∀ i < n, s.tab.Dc i = (s.run hist).tab.Dc i := fun i hi => by rw [h0.Dc i hi, h'.Dc i (by omega)]
  have hz : ∀ i < n, s.tab.z i = (s.run hist).tab.z i := fun i _ => by rw [h0.z, h'.z]
  rw [z2Dc_inside h' dz' hne hx', z2Dc_inside h0 dz' hne hx, z2DL_inside h' dz' hne hx', z2DL_inside h0 dz' hne hx]
  constructor
  · refine congrArg Except.ok (List.map_congr_left fun x hxm => ?_)
    exact (interp_prefix h0.pos hn' (h'.incz n') hz hDc (hx x hxm)).symm
  · refine congrArg Except.ok (List.map_congr_left fun x hxm => ?_)
    refine (interp_prefix h0.pos hn' (h'.incz n') hz (fun i hi => ?_) (hx x hxm)).symm
    unfold Obj.DL; rw [hDc i hi, hz i hi]

/-- what a query above the table answers: the value at the last node strictly below the largest query -/
theorem z2Dc_above {s : Obj} {p : Par} {n : ℕ} {dz0 : ℝ} (h : IsTab s p n dz0) {x dz : ℝ} (hd : 0 < dz)
    (hx : s.tab.z (n - 1) < x) :
    ∃ m : ℕ, IsTab (s.extend x dz) p (m + 1) dz ∧ m * dz < x ∧ x ≤ (m + 1) * dz ∧
      s.z2Dc [x] dz = (s.extend x dz, .ok [trapD p dz m]) ∧
      s.z2DL [x] dz = (s.extend x dz, .ok [trapD p dz m * (1 + m * dz)]) := by
  have hxp : 0 < x := lt_of_le_of_lt (by rw [h.z]; exact mul_nonneg (Nat.cast_nonneg _) h.step.le) hx
  have ht := extend_isTab s hxp hd
  rw [h.par] at ht
  obtain ⟨m, hm⟩ : ∃ m, ⌈x / dz⌉₊ = m + 1 := ⟨⌈x / dz⌉₊ - 1, by have := ht.pos; omega⟩
  rw [hm] at ht
  have h1 : (m : ℝ) < x / dz := Nat.lt_ceil.1 (by omega)
  have h2 : x / dz ≤ m + 1 := by have := Nat.le_ceil (x / dz); rw [hm] at this; exact_mod_cast this
  rw [lt_div_iff₀ hd] at h1
  rw [div_le_iff₀ hd] at h2
  have hcov : s.cover [x] dz = .ok (s.extend x dz) := by
    rcases cover_cases h [x] dz with ⟨hc, _⟩ | ⟨m', hm', _, he⟩
    · cases hc
    · obtain rfl : m' = x := by simpa using hm'
      rw [h.z] at hx
      rw [he, if_pos hx]
  have htop : (s.extend x dz).tab.z (m + 1 - 1) < x := by rw [ht.z]; simpa using h1
  refine ⟨m, ht, h1, h2, ?_, ?_⟩
  · unfold Obj.z2Dc; rw [hcov]
    simp only [List.map_cons, List.map_nil]
    rw [ht.len, interp_above (ht.incz _) (by omega) htop, Nat.add_sub_cancel, ht.Dc m (by omega)]
  · unfold Obj.z2DL; rw [hcov]
    simp only [List.map_cons, List.map_nil]
    rw [ht.len, interp_above (ht.incz _) (by omega) htop, Nat.add_sub_cancel]
    unfold Obj.DL
    rw [ht.Dc m (by omega), ht.z]

theorem cell_unique {m k : ℕ} {dz x : ℝ} (hd : 0 < dz) (a : m * dz < x) (b : x ≤ (m + 1) * dz) (c : k * dz < x)
    (d : x ≤ (k + 1) * dz) : m = k := by
  have h1 : (m : ℝ) < k + 1 := lt_of_mul_lt_mul_right (a.trans_le d) hd.le
  have h2 : (k : ℝ) < m + 1 := lt_of_mul_lt_mul_right (c.trans_le b) hd.le
  have h1' : m < k + 1 := by exact_mod_cast h1
  have h2' : k < m + 1 := by exact_mod_cast h2
  omega

/-- **C55 is false of the code.** For every flat cosmology, every reachable object and every redshift beyond its table:
asking for a redshift further out first changes the distance answered for that redshift. -/
theorem C55_history_fails {p : Par} (hf : Flat p) {max_z dz0 : ℝ} (hm : 0 < max_z) (hd0 : 0 < dz0) {s0 : Obj}
    (hs : init p max_z dz0 = .ok s0) (hist : List Op) (hh : ∀ op ∈ hist, op.Ok) {x x' dz : ℝ} (hd : 0 < dz) :
    let s := s0.run hist
    s.tab.z (s.n - 1) < x → x + dz ≤ x' →
    ∃ d d', (s.z2Dc [x] dz).2 = .ok [d] ∧ ((s.run [.z2Dc [x'] dz]).z2Dc [x] dz).2 = .ok [d'] ∧ d < d' := by
  obtain ⟨n, dz', h⟩ := run_state hm hd0 hs hist hh
  intro s hx hx'
  rw [h.len] at hx
  obtain ⟨m, ht, m1, m2, e1, -⟩ := z2Dc_above h hd hx
  obtain ⟨k, ht', k1, k2, e2, -⟩ := z2Dc_above h hd (show s.tab.z (n - 1) < x' by linarith)
  have hrun : s.run [.z2Dc [x'] dz] = s.extend x' dz := by
    show (s.z2Dc [x'] dz).1 = _
    rw [show s.z2Dc [x'] dz = _ from e2]
  refine ⟨_, interp (k + 1) (s.extend x' dz).tab.z (s.extend x' dz).tab.Dc x, by rw [show s.z2Dc [x] dz = _ from e1], ?_, ?_⟩
  · rw [hrun, z2Dc_inside ht' dz (by simp)]
    · rfl
    · intro y hy
      obtain rfl : y = x := by simpa using hy
      rw [ht'.z]; simp only [Nat.add_sub_cancel]
      nlinarith
  · have hmk : m + 1 < k + 1 := by
      have : (m : ℝ) * dz < k * dz := by nlinarith
      have : (m : ℝ) < k := lt_of_mul_lt_mul_right this hd.le
      have : m < k := by exact_mod_cast this
      omega
    rw [interp_cell (ht'.incz _) hmk (x := x) (by rw [ht'.z]; exact m1.le) (by rw [ht'.z]; push_cast; exact m2),
      ht'.Dc m (by omega), ht'.Dc (m + 1) hmk, ht'.z, ht'.z]
    have := trapD_succ_lt hf hd m
    push_cast
    have : 0 < (x - m * dz) / ((m + 1) * dz - m * dz) * (trapD p dz (m + 1) - trapD p dz m) := by
      refine mul_pos (div_pos (by linarith) (by nlinarith)) (by linarith)
    linarith

/-! ### C56: queries beyond the table -/

/-- **C56 is false of the code (distances).** Beyond the table, two different redshifts in the same step get the same
comoving and the same luminosity distance, on every reachable object. -/
theorem C56_distance_fails {p : Par} {max_z dz0 : ℝ} (hm : 0 < max_z) (hd0 : 0 < dz0) {s0 : Obj}
    (hs : init p max_z dz0 = .ok s0) (hist : List Op) (hh : ∀ op ∈ hist, op.Ok) {x x' dz : ℝ} (hd : 0 < dz) (k : ℕ) :
    let s := s0.run hist
    s.tab.z (s.n - 1) < x → k * dz < x → x < x' → x' ≤ (k + 1) * dz →
    ∃ d l, (s.z2Dc [x] dz).2 = .ok [d] ∧ (s.z2Dc [x'] dz).2 = .ok [d] ∧
      (s.z2DL [x] dz).2 = .ok [l] ∧ (s.z2DL [x'] dz).2 = .ok [l] := by
  obtain ⟨n, dz', h⟩ := run_state hm hd0 hs hist hh
  intro s hx k1 hxx k2
  rw [h.len] at hx
  obtain ⟨m, _, m1, m2, e1, e2⟩ := z2Dc_above h hd hx
  obtain ⟨m', _, m1', m2', e1', e2'⟩ := z2Dc_above h hd (hx.trans hxx)
  obtain rfl := cell_unique hd m1 m2 k1 (by linarith)
  obtain rfl := cell_unique hd m1' m2' (by linarith) k2
  exact ⟨_, _, by rw [show s.z2Dc [x] dz = _ from e1], by rw [show s.z2Dc [x'] dz = _ from e1'],
    by rw [show s.z2DL [x] dz = _ from e2], by rw [show s.z2DL [x'] dz = _ from e2']⟩

/-- **C56 is false of the code (redshifts).** `DL2z` of any distance beyond the table raises `TypeError`. -/
theorem C56_redshift_fails {p : Par} (hf : Flat p) {max_z dz0 : ℝ} (hm : 0 < max_z) (hd0 : 0 < dz0) {s0 : Obj}
    (hs : init p max_z dz0 = .ok s0) (hist : List Op) (hh : ∀ op ∈ hist, op.Ok) (ds : List ℝ) :
    let s := s0.run hist
    (∃ d ∈ ds, s.DL (s.n - 1) < d) → s.DL2z ds = (s, .error .typeError) := by
  obtain ⟨n, dz', h⟩ := run_state hm hd0 hs hist hh
  intro s hx
  rw [h.len] at hx
  obtain ⟨d, hdm, hlt⟩ := hx
  obtain ⟨m, hm⟩ : ∃ m, maxList ds = .ok m := by cases ds with | nil => cases hdm | cons x l => exact ⟨_, rfl⟩
  have := (maxList_ok hm).2 d hdm
  show Obj.DL2z _ _ = _
  unfold Obj.DL2z
  rw [hm, h.len, entries_max h.pos (h.incDL hf)]
  simp only []
  rw [if_pos (lt_of_lt_of_le hlt this)]

/-- **C56 (partial).** The comoving distance answered beyond the table is within one step times `c/H0` of the exact
integral.  Missing: exactness (`C56_distance_fails`) and `DL2z` (`C56_redshift_fails`). -/
theorem C56_distance_partial {p : Par} (hf : Flat p) {max_z dz0 : ℝ} (hm : 0 < max_z) (hd0 : 0 < dz0) {s0 : Obj}
    (hs : init p max_z dz0 = .ok s0) (hist : List Op) (hh : ∀ op ∈ hist, op.Ok) {x dz : ℝ} (hd : 0 < dz) :
    let s := s0.run hist
    s.tab.z (s.n - 1) < x →
    ∃ d, (s.z2Dc [x] dz).2 = .ok [d] ∧ |d - exactDc p x| ≤ dz * (299792458 / p.Ho) := by
  obtain ⟨n, dz', h⟩ := run_state hm hd0 hs hist hh
  intro s hx
  rw [h.len] at hx
  obtain ⟨m, _, m1, m2, e1, -⟩ := z2Dc_above h hd hx
  refine ⟨_, by rw [show s.z2Dc [x] dz = _ from e1], ?_⟩
  have ha : (0 : ℝ) ≤ m * dz := by positivity
  have he := trapD_error hf hd m
  obtain ⟨b1, b2⟩ := hubble_int_bounds hf ha m1.le le_rfl
  rw [exactDc_split hf ha m1.le]
  have e : hubble p 0 = 299792458 / p.Ho := by
    unfold hubble
    have : p.OmegaLambda + p.OmegaMatter * (1 + 0) ^ 3 + p.OmegaRadiation * (1 + 0) ^ 4 = 1 := by linarith [hf.flat]
    rw [this]; simp
  rw [← e]
  have hp := hubble_pos hf (z := x) (by linarith)
  have hp2 := hubble_pos hf ha
  have hanti := hubble_anti hf le_rfl ha
  have hl : 0 ≤ (x - m * dz) * hubble p x := mul_nonneg (by linarith) hp.le
  have hu : (x - m * dz) * hubble p (m * dz) ≤ dz * hubble p (m * dz) := mul_le_mul_of_nonneg_right (by linarith) hp2.le
  have := mul_le_mul_of_nonneg_left hanti hd.le
  rw [abs_le] at he ⊢
  constructor <;> nlinarith [he.1, he.2, mul_pos hd hp2]

/-- the hypotheses of the failures are met: the default object, a redshift just beyond its end -/
example : ∃ s, init planck2015 10 0.001 = .ok s ∧ s.tab.z (s.n - 1) < 12 ∧ ((12000 : ℕ) : ℝ) * 0.001 < 12.0004 := by
  obtain ⟨s, hs⟩ := (C52_constructor planck2015 10 0.001).1 planck_flat.1.flat
  have h := init_isTab (by norm_num) (by norm_num) hs
  refine ⟨s, hs, ?_, by norm_num⟩
  have hc : (10 : ℝ) / 0.001 = ((10000 : ℕ) : ℝ) := by norm_num
  have hl := h.len
  rw [hc, Nat.ceil_natCast] at hl
  rw [hl, h.z]; norm_num

/-! ### C57: logdVcdz -/

theorem log_dVcdz_pointwise {p : Par} (hf : Flat p) {z Dc : ℝ} (hz : 0 ≤ z) (hD : 0 ≤ Dc) :
    log (4 * fin Real.pi) + 2 * log (fin Dc) + log (fin (p.dDcdz z)) = log (fin (p.dVcdzAt z Dc)) := by
  have hp := hubble_pos hf hz
  rw [dDcdz_eq hf, Par.dVcdzAt, dDcdz_eq hf]
  have h4 : (4 : F) * fin Real.pi = fin (4 * Real.pi) := by simp
  have h4p : 0 < 4 * Real.pi := by positivity
  rw [h4, log_fin h4p, log_fin hp]
  rcases hD.eq_or_lt with rfl | hD
  · have e : 4 * Real.pi * (0 : ℝ) ^ 2 * hubble p z = 0 := by ring
    rw [e, F.log_zero]
    rw [show (2 : F) = fin 2 from rfl, fin_mul_ninf, infOfSign, if_neg (by norm_num), if_pos (by norm_num)]; rfl
  · rw [log_fin hD, log_fin (by positivity)]
    have e : Real.log (4 * Real.pi * Dc ^ 2 * hubble p z) = Real.log (4 * Real.pi) + 2 * Real.log Dc + Real.log (hubble p z) := by
      rw [Real.log_mul (by positivity) hp.ne', Real.log_mul h4p.ne' (by positivity), Real.log_pow]; push_cast; ring
    rw [e]; simp

theorem interp_nonneg' {n : ℕ} (hn : 0 < n) {xp fp : ℕ → ℝ} (hx : IncOn n xp) (hf : ∀ i < n, 0 ≤ fp i) (x : ℝ) :
    0 ≤ interp n xp fp x := by
  by_cases h2 : 2 ≤ n
  · exact interp_nonneg h2 hx hf x
  · obtain rfl : n = 1 := by omega
    have h0 := hf 0 hn
    unfold interp
    have e : min (max (countLE 1 xp x) 1) (1 - 1) = 0 := by omega
    simp only [e]
    split_ifs <;> simpa using h0

theorem distance_nonneg {s : Obj} {p : Par} {n : ℕ} {dz0 : ℝ} (h : IsTab s p n dz0) (hf : Flat p) {z : List ℝ} {dz : ℝ}
    (hd : 0 < dz) {Dc : Option (List ℝ)} (hD : ∀ d, Dc = some d → ∀ y ∈ d, 0 ≤ y) {d : List ℝ}
    (hr : (s.distance z Dc dz).2 = .ok d) : ∀ y ∈ d, 0 ≤ y := by
  cases Dc with
  | some d' => simp only [Obj.distance, Except.ok.injEq] at hr; exact hr ▸ hD d' rfl
  | none =>
    simp only [Obj.distance, Obj.z2Dc] at hr
    cases hc : s.cover z dz with
    | error e => rw [hc] at hr; cases hr
    | ok s' =>
      rw [hc] at hr
      obtain rfl := (Except.ok.inj hr)
      obtain ⟨n', dz', h'⟩ : ∃ n' dz', IsTab s' p n' dz' := by
        rcases cover_isTab h hd hc with rfl | ⟨m, _, _, _, h'⟩
        · exact ⟨n, dz0, h⟩
        · exact ⟨_, _, h'⟩
      intro y hy
      obtain ⟨x, _, rfl⟩ := List.mem_map.1 hy
      rw [h'.len]
      exact interp_nonneg' h'.pos (h'.incz _) (fun i hi => by rw [h'.Dc i hi]; exact trapD_nonneg hf h'.step i) x

theorem zipWith_log {p : Par} (hf : Flat p) : ∀ (z d : List ℝ), (∀ x ∈ z, 0 ≤ x) → (∀ y ∈ d, 0 ≤ y) →
    List.zipWith (fun z Dc => log (4 * fin Real.pi) + 2 * log (fin Dc) + log (fin (p.dDcdz z))) z d =
      (List.zipWith p.dVcdzAt z d).map fun v => log (fin v)
  | [], d, _, _ => by simp
  | x :: z, [], _, _ => by simp
  | x :: z, y :: d, hz, hd => by
    simp only [List.zipWith_cons_cons, List.map_cons]
    rw [log_dVcdz_pointwise hf (hz x (by simp)) (hd y (by simp)),
      zipWith_log hf z d (fun a ha => hz a (by simp [ha])) fun a ha => hd a (by simp [ha])]

/-- **C57.** On every reachable object, for all non-negative redshifts and (given or computed) distances, `logdVcdz`
returns the logarithms of what `dVcdz` returns (`-inf` at zero distance), raises when it raises, and leaves the object in
the same state. -/
theorem C57_log {p : Par} (hf : Flat p) {max_z dz0 : ℝ} (hm : 0 < max_z) (hd0 : 0 < dz0) {s0 : Obj}
    (hs : init p max_z dz0 = .ok s0) (hist : List Op) (hh : ∀ op ∈ hist, op.Ok) {dz : ℝ} (hd : 0 < dz) (z : List ℝ)
    (hz : ∀ x ∈ z, 0 ≤ x) (Dc : Option (List ℝ)) (hD : ∀ d, Dc = some d → ∀ y ∈ d, 0 ≤ y) :
    let s := s0.run hist
    (s.logdVcdz z Dc dz).1 = (s.dVcdz z Dc dz).1 ∧
    (s.logdVcdz z Dc dz).2 = (s.dVcdz z Dc dz).2.map fun vs => vs.map fun v => log (fin v) := by
  obtain ⟨n, dz', h⟩ := run_state hm hd0 hs hist hh
  intro s
  refine ⟨rfl, ?_⟩
  simp only [Obj.logdVcdz, Obj.dVcdz]
  cases hr : (s.distance z Dc dz).2 with
  | error e => rfl
  | ok d =>
    simp only [Except.map]
    rw [show s.par = p from h.par, zipWith_log hf z d hz (distance_nonneg h hf hd hD hr)]

/-- the volume element itself: `4π Dc² · c/(H0 E(z))` with the distances `z2Dc` returns -/
theorem C57_value {p : Par} (hf : Flat p) {max_z dz0 : ℝ} (hm : 0 < max_z) (hd0 : 0 < dz0) {s0 : Obj}
    (hs : init p max_z dz0 = .ok s0) (hist : List Op) (hh : ∀ op ∈ hist, op.Ok) {dz : ℝ} (z : List ℝ) :
    let s := s0.run hist
    (s.dVcdz z none dz).1 = (s.z2Dc z dz).1 ∧
    (s.dVcdz z none dz).2 = (s.z2Dc z dz).2.map fun ds => List.zipWith (fun x d => 4 * Real.pi * d ^ 2 * hubble p x) z ds := by
  obtain ⟨n, dz', h⟩ := run_state hm hd0 hs hist hh
  intro s
  refine ⟨rfl, ?_⟩
  simp only [Obj.dVcdz, Obj.distance]
  rw [show s.par = p from h.par]
  have : p.dVcdzAt = fun x d => 4 * Real.pi * d ^ 2 * hubble p x := by
    funext x d; unfold Par.dVcdzAt; rw [dDcdz_eq hf]
  rw [this]

/-- asking twice gives the same answer and does not change the object again -/
theorem z2Dc_idem {s : Obj} {p : Par} {n : ℕ} {dz0 : ℝ} (h : IsTab s p n dz0) (z : List ℝ) {dz : ℝ} (hd : 0 < dz) :
    (s.z2Dc z dz).1.z2Dc z dz = s.z2Dc z dz := by
  rcases cover_cases h z dz with ⟨rfl, he⟩ | ⟨m, hm, hmax, he⟩
  · simp only [Obj.z2Dc, he]
  · by_cases hlt : ((n - 1 : ℕ) : ℝ) * dz0 < m
    · rw [if_pos hlt] at he
      have e1 : s.z2Dc z dz = (s.extend m dz, .ok (z.map fun x =>
          interp (s.extend m dz).n (s.extend m dz).tab.z (s.extend m dz).tab.Dc x)) := by simp only [Obj.z2Dc, he]
      have hmp : 0 < m := lt_of_le_of_lt (mul_nonneg (Nat.cast_nonneg _) h.step.le) hlt
      have ht := extend_isTab s hmp hd
      have hc : (s.extend m dz).cover z dz = .ok (s.extend m dz) := by
        rcases cover_cases ht z dz with ⟨rfl, _⟩ | ⟨m', hm', hmax', he'⟩
        · cases hm
        · obtain rfl : m' = m := le_antisymm (hmax m' hm') (hmax' m hm)
          rw [he', if_pos]
          · rfl
          · have := ht.pos
            have hl : ⌈m' / dz⌉₊ - 1 < ⌈m' / dz⌉₊ := by omega
            have := Nat.lt_ceil.1 hl
            rwa [lt_div_iff₀ hd] at this
      rw [e1]
      simp only [Obj.z2Dc, hc]
    · rw [if_neg hlt] at he
      have e1 : s.z2Dc z dz = (s, .ok (z.map fun x => interp s.n s.tab.z s.tab.Dc x)) := by simp only [Obj.z2Dc, he]
      rw [e1, e1]

/-- **C57**, in sequence: taking the volume element and then its logarithm on the same object uses the same distances. -/
theorem C57_sequence {p : Par} (hf : Flat p) {max_z dz0 : ℝ} (hm : 0 < max_z) (hd0 : 0 < dz0) {s0 : Obj}
    (hs : init p max_z dz0 = .ok s0) (hist : List Op) (hh : ∀ op ∈ hist, op.Ok) {dz : ℝ} (hd : 0 < dz) (z : List ℝ)
    (hz : ∀ x ∈ z, 0 ≤ x) :
    let s := s0.run hist
    ((s.dVcdz z none dz).1.logdVcdz z none dz).2 = (s.dVcdz z none dz).2.map fun vs => vs.map fun v => log (fin v) := by
  intro s
  obtain ⟨n, dz', h⟩ := run_state hm hd0 hs hist hh
  have hidem := z2Dc_idem h z hd
  obtain ⟨n', dz2, h'⟩ := z2Dc_state h z hd
  have key := (C57_log hf hm hd0 hs hist hh hd z hz none (by simp)).2
  rw [← key]
  have hpar : (s.z2Dc z dz).1.par = s.par := h'.par.trans h.par.symm
  simp only [Obj.logdVcdz, Obj.dVcdz, Obj.distance]
  rw [show (s.z2Dc z dz).1.z2Dc z dz = s.z2Dc z dz from hidem, hpar]

example : ∃ s, init planck2015LVK 3 0.01 = .ok s ∧ (∀ x ∈ [(0 : ℝ), 0.5, 7], 0 ≤ x) :=
  let ⟨s, hs⟩ := (C52_constructor planck2015LVK 3 0.01).1 planck_flat.2.flat
  ⟨s, hs, by intro x hx; simp at hx; rcases hx with rfl | rfl | rfl <;> norm_num⟩

/-- **C53**, the two objects of the module: with the published constants (`H0` in m/s/Mpc) the distance answered inside the table is within `step/2 · c/H0` of
`∫₀ˣ c / (H0 √(1 - ΩM + ΩM (1+u)³)) du`; `PLANCK_2015_Cosmology` has `H0 = 67740`, `ΩM = 0.3089`, `PLANCK_2015_LVK_Cosmology` has `H0 = 67900`, `ΩM = 0.3065`. -/
theorem C53_published {p : Par} {H Om : ℝ} (hp : (p = planck2015 ∧ H = 67740 ∧ Om = 0.3089) ∨ (p = planck2015LVK ∧ H = 67900 ∧ Om = 0.3065))
    {max_z dz : ℝ} (hm : 0 < max_z) (hd : 0 < dz) {s : Obj}
    (hs : init p max_z dz = .ok s) (hist : List Op) (hh : ∀ op ∈ hist, op.Ok) (x dz' : ℝ) :
    let t := s.run hist
    0 ≤ x → x ≤ t.tab.z (t.n - 1) →
    ∃ d, t.z2Dc [x] dz' = (t, .ok [d]) ∧
      |d - ∫ u in (0 : ℝ)..x, 299792458 / (H * √(1 - Om + Om * (1 + u) ^ 3))| ≤ (t.tab.z 1 - t.tab.z 0) / 2 * (299792458 / H) := by
  have hc : Flat p ∧ p.Ho = H ∧ p.OmegaMatter = Om ∧ p.OmegaRadiation = 0 ∧ p.OmegaLambda = 1 - Om := by
    rcases hp with ⟨rfl, rfl, rfl⟩ | ⟨rfl, rfl, rfl⟩
    · exact ⟨planck_flat.1, by norm_num [planck2015], by norm_num [planck2015], by norm_num [planck2015], by norm_num [planck2015]⟩
    · exact ⟨planck_flat.2, by norm_num [planck2015LVK], by norm_num [planck2015LVK], by norm_num [planck2015LVK], by norm_num [planck2015LVK]⟩
  obtain ⟨hf, h1, h2, h3, h4⟩ := hc
  intro t h0 hx
  obtain ⟨d, e, b⟩ := C53_query_error hf hm hd hs hist hh x dz' h0 hx
  refine ⟨d, e, ?_⟩
  unfold exactDc hubble at b
  simpa only [h1, h2, h3, h4, zero_mul, add_zero] using b

example : ∃ s d, init planck2015LVK 3 0.01 = .ok s ∧ s.z2Dc [0] 0.01 = (s, .ok [d]) ∧
    |d - ∫ u in (0 : ℝ)..0, 299792458 / (67900 * √(1 - 0.3065 + 0.3065 * (1 + u) ^ 3))| ≤ (s.tab.z 1 - s.tab.z 0) / 2 * (299792458 / 67900) := by
  obtain ⟨s, hs⟩ := (C52_constructor planck2015LVK 3 0.01).1 planck_flat.2.flat
  have h := init_isTab (by norm_num) (by norm_num) hs
  obtain ⟨d, e, b⟩ := C53_published (Or.inr ⟨rfl, rfl, rfl⟩) (by norm_num) (by norm_num) hs [] (by simp) 0 0.01 le_rfl
    (by show 0 ≤ s.tab.z _; rw [h.z]; positivity)
  exact ⟨s, d, hs, e, b⟩

end GW.Cosmo
end
