import Verif.Model.SpinPriorsArray
import Verif.Props.SpinPriors

/-!
# C139: the isotropic effective-spin prior on arrays
-/

noncomputable section
open Classical
namespace GW

/-- the value of one entry (NaN where the evaluation of that entry alone raises) -/
def isoVal (Di : ℝ → ℝ) (depth : ℕ) (x q a : ℝ) : F :=
  match isotropicPrior Di depth x q a with
  | .ok v => v
  | .error _ => F.nan

theorem isoVal_of_ok {Di : ℝ → ℝ} {depth : ℕ} {x q a : ℝ} {v : F} (h : isotropicPrior Di depth x q a = .ok v) :
    isoVal Di depth x q a = v := by simp [isoVal, h]

theorem isotropicPrior_error (Di : ℝ → ℝ) (depth : ℕ) (x q a : ℝ) :
    (∃ v, isotropicPrior Di depth x q a = .ok v) ∨ isotropicPrior Di depth x q a = .error .recursionError := by
  induction depth generalizing x with
  | zero => exact .inr rfl
  | succ d ih =>
    rw [isotropicPrior]
    cases h : isoSelect Di |x| q a with
    | some v => exact .inl ⟨v, rfl⟩
    | none =>
      rcases ih (|x| + 1e-6) with ⟨p, hp⟩ | hp
      · rcases ih (|x| - 1e-6) with ⟨m, hm⟩ | hm
        · exact .inl ⟨_, by simp only [hp, hm]; rfl⟩
        · exact .inr (by simp only [hp, hm])
      · exact .inr (by simp only [hp])

theorem bcast_one (q : ℝ) (i : ℕ) : bcast [q] i = q := by simp [bcast]

theorem getD_map_abs (chi : List ℝ) (i : ℕ) : (chi.map fun x => |x|).getD i 0 = |chi.getD i 0| := by
  rcases lt_or_ge i chi.length with h | h
  · simp [List.getD_eq_getElem?_getD, h]
  · simp [List.getD_eq_getElem?_getD, h]

theorem getD_idxOf {l : List ℕ} {i : ℕ} (f : ℕ → F) (h : i ∈ l) : (l.map f).getD (l.idxOf i) F.nan = f i := by
  have hl := List.idxOf_lt_length_iff.2 h
  rw [List.getD_eq_getElem?_getD, List.getElem?_map, List.getElem?_eq_getElem hl]
  simp

theorem map_range_getD {β : Type} (l : List ℝ) (f : ℝ → β) : ((List.range l.length).map fun i => f (l.getD i 0)) = l.map f := by
  apply List.ext_getElem
  · simp
  · intro i h1 h2
    have : i < l.length := by simpa using h2
    simp [List.getD_eq_getElem?_getD, this]

/-- with a scalar mass ratio: all entries evaluate alone ⟹ the array call returns them -/
theorem isoArr_ok (Di : ℝ → ℝ) (q a : ℝ) (depth : ℕ) (chi : List ℝ) (hne : chi ≠ [] ∨ 0 < depth)
    (h : ∀ x ∈ chi, ∃ v, isotropicPrior Di depth x q a = .ok v) :
    isotropicPriorArr Di depth chi [q] a = .ok (chi.map fun x => isoVal Di depth x q a) := by
  induction depth generalizing chi with
  | zero =>
    rcases hne with hne | hne
    · obtain ⟨x, hx⟩ := List.exists_mem_of_ne_nil _ hne
      obtain ⟨v, hv⟩ := h x hx
      simp [isotropicPrior] at hv
    · exact absurd hne (lt_irrefl _)
  | succ d ih =>
    rw [isotropicPriorArr]
    simp only [List.length_singleton, ne_eq, not_true_eq_false, false_and, if_false, bcast_one, getD_map_abs, List.length_map]
    set bnd := (List.range chi.length).filter fun i => decide (isoSelect Di |chi.getD i 0| q a = none) with hbnd
    have hmem : ∀ i, i ∈ bnd ↔ i < chi.length ∧ isoSelect Di |chi.getD i 0| q a = none := by
      intro i; simp [hbnd]
    have hin : ∀ i, i < chi.length → chi.getD i 0 ∈ chi := by
      intro i hi; rw [List.getD_eq_getElem?_getD, List.getElem?_eq_getElem hi]; exact List.getElem_mem hi
    have hsome : ∀ x v, isoSelect Di |x| q a = some v → isoVal Di (d + 1) x q a = v := by
      intro x v hv; simp [isoVal, isotropicPrior, hv]
    by_cases hb : bnd = []
    · rw [if_pos hb]
      rw [← map_range_getD chi]
      congr 1
      apply List.map_congr_left
      intro i hi
      have hi' : i < chi.length := by simpa using hi
      cases hs : isoSelect Di |chi.getD i 0| q a with
      | none => exact absurd ((hmem i).2 ⟨hi', hs⟩) (by simp [hb])
      | some v => rw [hsome _ _ hs]; rfl
    · rw [if_neg hb]
      have hpm : ∀ i ∈ bnd, (∃ p, isotropicPrior Di d (|chi.getD i 0| + 1e-6) q a = .ok p) ∧
          ∃ m, isotropicPrior Di d (|chi.getD i 0| - 1e-6) q a = .ok m := by
        intro i hi
        obtain ⟨hi1, hi2⟩ := (hmem i).1 hi
        obtain ⟨v, hv⟩ := h _ (hin i hi1)
        rw [isotropicPrior] at hv
        simp only [hi2] at hv
        rcases isotropicPrior_error Di d (|chi.getD i 0| + 1e-6) q a with ⟨p, hp⟩ | hp
        · rcases isotropicPrior_error Di d (|chi.getD i 0| - 1e-6) q a with ⟨m, hm⟩ | hm
          · exact ⟨⟨p, hp⟩, ⟨m, hm⟩⟩
          · simp only [hp, hm] at hv; exact absurd hv (by simp)
        · simp only [hp] at hv; exact absurd hv (by simp)
      have hbne : ∀ f : ℕ → ℝ, bnd.map f ≠ [] := fun f => by simpa using hb
      rw [ih _ (.inl (hbne _)) (by
        intro x hx; obtain ⟨i, hi, rfl⟩ := List.mem_map.1 hx; exact (hpm i hi).1),
        ih _ (.inl (hbne _)) (by
        intro x hx; obtain ⟨i, hi, rfl⟩ := List.mem_map.1 hx; exact (hpm i hi).2)]
      simp only [bind, Except.bind, List.map_map]
      rw [← map_range_getD chi]
      congr 1
      apply List.map_congr_left
      intro i hi
      have hi' : i < chi.length := by simpa using hi
      cases hs : isoSelect Di |chi.getD i 0| q a with
      | some v => rw [hsome _ _ hs]
      | none =>
        have hib := (hmem i).2 ⟨hi', hs⟩
        obtain ⟨⟨p, hp⟩, ⟨m, hm⟩⟩ := hpm i hib
        simp only [getD_idxOf _ hib, Function.comp]
        rw [isoVal_of_ok hp, isoVal_of_ok hm, isoVal, isotropicPrior]
        simp only [hs, hp, hm]

/-- with a scalar mass ratio: one entry raises ⟹ the array call raises -/
theorem isoArr_error (Di : ℝ → ℝ) (q a : ℝ) (depth : ℕ) (chi : List ℝ)
    (h : ∃ x ∈ chi, isotropicPrior Di depth x q a = .error .recursionError) :
    isotropicPriorArr Di depth chi [q] a = .error .recursionError := by
  induction depth generalizing chi with
  | zero => rfl
  | succ d ih =>
    rw [isotropicPriorArr]
    simp only [List.length_singleton, ne_eq, not_true_eq_false, false_and, if_false, bcast_one, getD_map_abs, List.length_map]
    set bnd := (List.range chi.length).filter fun i => decide (isoSelect Di |chi.getD i 0| q a = none) with hbnd
    obtain ⟨x, hx, he⟩ := h
    obtain ⟨i, hi, rfl⟩ := List.mem_iff_getElem.1 hx
    have hg : chi.getD i 0 = chi[i] := by rw [List.getD_eq_getElem?_getD, List.getElem?_eq_getElem hi]; rfl
    rw [isotropicPrior] at he
    cases hs : isoSelect Di |chi[i]| q a with
    | some v => simp [hs] at he
    | none =>
      have hib : i ∈ bnd := by simp [hbnd, hi, hs]
      rw [if_neg (List.ne_nil_of_mem hib)]
      by_cases hall : ∃ y ∈ (bnd.map fun i => |chi.getD i 0| + 1e-6), isotropicPrior Di d y q a = .error .recursionError
      · rw [ih _ hall]; rfl
      · rw [isoArr_ok Di q a d _ (.inl (by simpa using List.ne_nil_of_mem hib)) (by
          intro y hy
          rcases isotropicPrior_error Di d y q a with h | h
          · exact h
          · exact absurd ⟨y, hy, h⟩ hall)]
        rw [ih _ ⟨|chi[i]| - 1e-6, List.mem_map.2 ⟨i, hib, by rw [hg]⟩, by
          simp only [hs] at he
          rcases isotropicPrior_error Di d (|chi[i]| + 1e-6) q a with ⟨p, hp⟩ | hp
          · rcases isotropicPrior_error Di d (|chi[i]| - 1e-6) q a with ⟨m, hm⟩ | hm
            · simp [hp, hm] at he
            · exact hm
          · exact absurd ⟨_, List.mem_map.2 ⟨i, hib, by rw [hg]⟩, hp⟩ hall⟩]
        rfl

/-- **C139 (partial).** With a scalar mass ratio the call on an array of effective spins is the entrywise call: it returns, in the original
order, the value of every entry alone, and raises iff some entry alone raises.  Missing: an array of mass ratios with boundary entries
(`C139_array_ratio_fails`). -/
theorem C139_scalar_ratio_partial (Di : ℝ → ℝ) (q a : ℝ) (depth : ℕ) (chi : List ℝ) :
    (∀ v : ℝ → F, (∀ x ∈ chi, isotropicPrior Di (depth + 1) x q a = .ok (v x)) →
      isotropicPriorArr Di (depth + 1) chi [q] a = .ok (chi.map v)) ∧
    ((∃ x ∈ chi, ∃ e, isotropicPrior Di (depth + 1) x q a = .error e) →
      isotropicPriorArr Di (depth + 1) chi [q] a = .error .recursionError) := by
  constructor
  · intro v hv
    rw [isoArr_ok Di q a _ chi (.inr (Nat.succ_pos _)) fun x hx => ⟨_, hv x hx⟩]
    congr 1
    exact List.map_congr_left fun x hx => isoVal_of_ok (hv x hx)
  · rintro ⟨x, hx, e, he⟩
    refine isoArr_error Di q a _ chi ⟨x, hx, ?_⟩
    rcases isotropicPrior_error Di (depth + 1) x q a with ⟨v, hv⟩ | h
    · rw [hv] at he; simp at he
    · exact h

example (Di : ℝ → ℝ) (depth : ℕ) :
    isotropicPriorArr Di (depth + 1) [2, 0, -1] [0.5] 1 = .ok [F.fin 0, F.fin (isoZ 0.5 1), F.fin 0] := by
  have h := (C139_scalar_ratio_partial Di 0.5 1 depth [2, 0, -1]).1 (fun x => if x = 0 then F.fin (isoZ 0.5 1) else F.fin 0) (by
    intro x hx
    simp only [List.mem_cons, List.not_mem_nil, or_false] at hx
    rcases hx with rfl | rfl | rfl
    · rw [C61_support Di depth (by norm_num) (by norm_num) (by rw [abs_of_pos] <;> norm_num), if_neg (by norm_num)]
    · rw [isotropicPrior]; simp [isoSelect]
    · rw [C61_support Di depth (by norm_num) (by norm_num) (by norm_num), if_neg (by norm_num)])
  rw [h]; simp

/-- **C139 (partial).** With one mass ratio per effective spin, none of the entries on a boundary between the cases of its mass ratio: the
call returns at every entry the value of that effective spin at that mass ratio. -/
theorem C139_array_ratio_partial (Di : ℝ → ℝ) (a : ℝ) (depth : ℕ) (chi qs : List ℝ) (hlen : qs.length = chi.length)
    (v : ℕ → F) (h : ∀ i < chi.length, isoSelect Di |chi.getD i 0| (qs.getD i 0) a = some (v i)) :
    isotropicPriorArr Di (depth + 1) chi qs a = .ok ((List.range chi.length).map v) ∧
      ∀ i < chi.length, isotropicPrior Di (depth + 1) (chi.getD i 0) (qs.getD i 0) a = .ok (v i) := by
  have hb : ∀ i < chi.length, bcast qs i = qs.getD i 0 := by
    intro i hi
    unfold bcast
    split_ifs with h1
    · have : i = 0 := by omega
      rw [this]
    · rfl
  constructor
  · rw [isotropicPriorArr]
    simp only [List.length_map, hlen, ne_eq, not_true_eq_false, and_false, if_false, getD_map_abs]
    rw [if_pos]
    · congr 1
      apply List.map_congr_left
      intro i hi
      have hi' : i < chi.length := by simpa using hi
      rw [hb i hi', h i hi']; rfl
    · rw [List.filter_eq_nil_iff]
      intro i hi
      have hi' : i < chi.length := by simpa using hi
      simp only [hb i hi', h i hi']; simp
  · intro i hi
    rw [isotropicPrior]
    simp only [h i hi]

/-- number of entries that lie on a boundary between the cases of their mass ratio -/
def boundaryCount (Di : ℝ → ℝ) (chi qs : List ℝ) (a : ℝ) : ℕ :=
  ((List.range chi.length).filter fun i => isoSelect Di |chi.getD i 0| (qs.getD i 0) a = none).length

/-- **C139 is false of the code.** With one mass ratio per effective spin, the call raises `ValueError` as soon as some but not all entries
lie on a boundary: the nested call gets the boundary entries only, but all mass ratios. -/
theorem C139_array_ratio_fails (Di : ℝ → ℝ) (a : ℝ) (depth : ℕ) (chi qs : List ℝ) (hlen : qs.length = chi.length)
    (h0 : 0 < boundaryCount Di chi qs a) (h1 : boundaryCount Di chi qs a < chi.length) :
    isotropicPriorArr Di (depth + 2) chi qs a = .error .valueError := by
  have hn : chi.length ≠ 1 := by omega
  have hb : ∀ i, bcast qs i = qs.getD i 0 := by
    intro i; unfold bcast; rw [if_neg (by rw [hlen]; exact hn)]
  rw [isotropicPriorArr]
  simp only [List.length_map, hlen, ne_eq, not_true_eq_false, and_false, if_false, getD_map_abs, hb]
  unfold boundaryCount at h0 h1
  set bnd := (List.range chi.length).filter fun i => decide (isoSelect Di |chi.getD i 0| (qs.getD i 0) a = none) with hbnd
  rw [if_neg (by intro h; rw [h] at h0; simp at h0), isotropicPriorArr]
  simp only [List.length_map, hlen]
  rw [if_pos ⟨hn, by omega⟩]
  rfl

/-- **C139 (partial).** With every entry on a boundary of its own mass ratio, and no shifted entry on one, the nested calls have as many
entries as mass ratios: the call returns the entrywise values. -/
theorem C139_all_boundary_partial (Di : ℝ → ℝ) (a : ℝ) (depth : ℕ) (chi qs : List ℝ) (hlen : qs.length = chi.length)
    (p m : ℕ → F) (h : ∀ i < chi.length, isoSelect Di |chi.getD i 0| (qs.getD i 0) a = none ∧
      isoSelect Di |(|chi.getD i 0| + 1e-6)| (qs.getD i 0) a = some (p i) ∧
      isoSelect Di |(|chi.getD i 0| - 1e-6)| (qs.getD i 0) a = some (m i)) :
    isotropicPriorArr Di (depth + 2) chi qs a = .ok ((List.range chi.length).map fun i => F.fin 0.5 * (p i + m i)) ∧
      ∀ i < chi.length, isotropicPrior Di (depth + 2) (chi.getD i 0) (qs.getD i 0) a = .ok (F.fin 0.5 * (p i + m i)) := by
  have hb : ∀ i < chi.length, bcast qs i = qs.getD i 0 := by
    intro i hi
    unfold bcast
    split_ifs with h1
    · have : i = 0 := by omega
      rw [this]
    · rfl
  constructor
  · rw [isotropicPriorArr]
    simp only [List.length_map, hlen, ne_eq, not_true_eq_false, and_false, if_false, getD_map_abs]
    have hf : ((List.range chi.length).filter fun i => decide (isoSelect Di |chi.getD i 0| (bcast qs i) a = none)) =
        List.range chi.length := by
      rw [List.filter_eq_self]
      intro i hi
      have hi' : i < chi.length := by simpa using hi
      rw [hb i hi', (h i hi').1]; simp
    rw [hf]
    have hget : ∀ (f : ℕ → ℝ) (i : ℕ), i < chi.length → ((List.range chi.length).map f).getD i 0 = f i := by
      intro f i hi; simp [List.getD_eq_getElem?_getD, hi]
    have hp := (C139_array_ratio_partial Di a depth ((List.range chi.length).map fun i => |chi.getD i 0| + 1e-6) qs (by simp [hlen]) p (by
      intro i hi
      have hi' : i < chi.length := by simpa using hi
      rw [hget _ i hi']; exact (h i hi').2.1)).1
    have hm := (C139_array_ratio_partial Di a depth ((List.range chi.length).map fun i => |chi.getD i 0| - 1e-6) qs (by simp [hlen]) m (by
      intro i hi
      have hi' : i < chi.length := by simpa using hi
      rw [hget _ i hi']; exact (h i hi').2.2)).1
    rw [hp, hm]
    simp only [List.length_map, List.length_range, bind, Except.bind]
    split_ifs with h0
    · have : chi.length = 0 := by simpa using h0
      rw [this]; rfl
    · congr 1
      apply List.map_congr_left
      intro i hi
      have hi' : i < chi.length := by simpa using hi
      rw [hb i hi', (h i hi').1]
      simp only [getD_idxOf _ hi]
  · intro i hi
    obtain ⟨h1, h2, h3⟩ := h i hi
    rw [isotropicPrior]
    simp only [h1]
    rw [isotropicPrior]
    simp only [h2]
    rw [isotropicPrior]
    simp only [h3]

/-- **C139 is false of the code.** A number of mass ratios other than one and the number of effective spins raises `ValueError`: in
particular one effective spin with several mass ratios, although numpy could broadcast them. -/
theorem C139_one_spin_many_ratios_fails (Di : ℝ → ℝ) (a x : ℝ) (depth : ℕ) (qs : List ℝ) (h : 2 ≤ qs.length) :
    isotropicPriorArr Di (depth + 1) [x] qs a = .error .valueError := by
  rw [isotropicPriorArr, if_pos ⟨by omega, by simp; omega⟩]

/-- no boundary entry: an effective spin of zero and one of 0.6, at different mass ratios -/
example (Di : ℝ → ℝ) (depth : ℕ) : ∃ v : ℕ → F, isotropicPriorArr Di (depth + 1) [0, 0.6] [0.3, 1] 1 = .ok [v 0, v 1] := by
  have e1 : ∃ v, isoSelect Di |(0.6:ℝ)| 1 1 = some v := by
    rw [abs_of_pos (by norm_num)]; unfold isoSelect; norm_num
  obtain ⟨v, e1⟩ := e1
  refine ⟨fun i => if i = 0 then F.fin (isoZ 0.3 1) else v, ?_⟩
  rw [(C139_array_ratio_partial Di 1 depth [0, 0.6] [0.3, 1] rfl (fun i => if i = 0 then F.fin (isoZ 0.3 1) else v) (by
    intro i hi
    have : i = 0 ∨ i = 1 := by simp at hi; omega
    rcases this with rfl | rfl
    · simp [isoSelect]
    · simpa using e1)).1]
  rfl

/-- every entry on a boundary -/
example (Di : ℝ → ℝ) (depth : ℕ) : ∃ v, isotropicPriorArr Di (depth + 2) [0.5, 0.5] [1, 1] 1 = .ok v := by
  have e0 : isoSelect Di |(0.5:ℝ)| 1 1 = none := by rw [abs_of_pos (by norm_num)]; unfold isoSelect; norm_num
  have e1 : ∃ v, isoSelect Di |(|(0.5:ℝ)| + 1e-6)| 1 1 = some v := by
    rw [abs_of_pos (a := (0.5:ℝ)) (by norm_num), abs_of_pos (by norm_num)]; unfold isoSelect; norm_num
  have e2 : ∃ v, isoSelect Di |(|(0.5:ℝ)| - 1e-6)| 1 1 = some v := by
    rw [abs_of_pos (a := (0.5:ℝ)) (by norm_num), abs_of_pos (by norm_num)]; unfold isoSelect; norm_num
  obtain ⟨p, e1⟩ := e1
  obtain ⟨m, e2⟩ := e2
  refine ⟨_, (C139_all_boundary_partial Di 1 depth [0.5, 0.5] [1, 1] rfl (fun _ => p) (fun _ => m) ?_).1⟩
  intro i hi
  have : i = 0 ∨ i = 1 := by simp at hi; omega
  rcases this with rfl | rfl <;> exact ⟨e0, e1, e2⟩

/-- Two events of equal masses, one with an effective spin of exactly 1/2: the call raises, although each entry alone has a value. -/
example (Di : ℝ → ℝ) (depth : ℕ) : isotropicPriorArr Di (depth + 2) [0.5, 0.6] [1, 1] 1 = .error .valueError := by
  have e0 : isoSelect Di |(0.5:ℝ)| 1 1 = none := by
    rw [abs_of_pos (by norm_num)]
    unfold isoSelect
    norm_num
  have e1 : ∃ v, isoSelect Di |(0.6:ℝ)| 1 1 = some v := by
    rw [abs_of_pos (by norm_num)]
    unfold isoSelect
    norm_num
  obtain ⟨v, e1⟩ := e1
  have : boundaryCount Di [0.5, 0.6] [1, 1] 1 = 1 := by
    simp [boundaryCount, List.range_succ, e0, e1, List.filter]
  exact C139_array_ratio_fails Di 1 depth _ _ rfl (by rw [this]; norm_num) (by rw [this]; simp)

end GW
end
