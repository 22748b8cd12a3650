import Mathlib.Algebra.Order.Floor.Semiring
import Mathlib.Tactic.Linarith
import Mathlib.Tactic.NormNum
import Mathlib.Tactic.FieldSimp
import Mathlib.Tactic.Positivity
import Verif.Model.Plot

/-!
# Plots show the median and the central 90% of the draws (C94) and one curve per population (C95)
-/

noncomputable section
open Classical
namespace GW
open F

/-! ## Specification -/

/-- number of draws strictly below `y` -/
def nBelow (d : List ℝ) (y : ℝ) : ℕ := (d.filter fun a => decide (a < y)).length
/-- number of draws strictly above `y` -/
def nAbove (d : List ℝ) (y : ℝ) : ℕ := (d.filter fun a => decide (y < a)).length

/-- `y` is a `p`-quantile of the draws: at most a fraction `p` of the `n - 1` gaps between the ordered draws (rounded up) lies
below it and at most a fraction `1 - p` above it. -/
def IsQuantile (d : List ℝ) (p y : ℝ) : Prop :=
  (nBelow d y : ℝ) < p * ((d.length : ℝ) - 1) + 1 ∧ (nAbove d y : ℝ) < (1 - p) * ((d.length : ℝ) - 1) + 1

/-! ## Order statistics -/

/-- linear interpolation of the list `s` at the real index `v` -/
def interpAt (s : List ℝ) (v : ℝ) : ℝ :=
  s.getD ⌊v⌋₊ 0 + (s.getD (min (⌊v⌋₊ + 1) (s.length - 1)) 0 - s.getD ⌊v⌋₊ 0) * (v - ⌊v⌋₊)

theorem sortF_map (xs : List ℝ) : sortF (xs.map fin) = (xs.insertionSort (· ≤ ·)).map fin := by
  unfold sortF
  exact (List.map_insertionSort (r := (· ≤ ·)) (s := F.le) fin xs (fun a _ b _ => by simp)).symm

theorem getD_at (s : List ℝ) {k : ℕ} (h : k < s.length) : s.getD k 0 = s[k] := by simp [List.getD, h]

theorem getD_map_fin (s : List ℝ) {k : ℕ} (h : k < s.length) : (s.map fin).getD k nan = fin (s.getD k 0) := by
  simp [List.getD, h]

theorem nan_notMem_map (xs : List ℝ) : nan ∉ xs.map fin := by simp

theorem floor_lt {n : ℕ} (hn : 0 < n) {p : ℝ} (hp0 : 0 ≤ p) (hp1 : p ≤ 1) : ⌊p * ((n : ℝ) - 1)⌋₊ < n := by
  have h1 : (1 : ℝ) ≤ n := by exact_mod_cast hn
  have : p * ((n : ℝ) - 1) ≤ n - 1 := by nlinarith
  rw [Nat.floor_lt (by nlinarith)]
  linarith

theorem percentileF_map {xs : List ℝ} (hx : xs ≠ []) {q : ℝ} (hq0 : 0 ≤ q) (hq1 : q ≤ 100) :
    percentileF (xs.map fin) q = fin (interpAt (xs.insertionSort (· ≤ ·)) (q / 100 * ((xs.length : ℝ) - 1))) := by
  have hn : 0 < xs.length := List.length_pos_of_ne_nil hx
  have hf := floor_lt hn (p := q / 100) (by positivity) (by linarith)
  unfold percentileF interpAt
  rw [if_neg (nan_notMem_map xs), sortF_map]
  simp only [List.length_map, List.length_insertionSort]
  rw [getD_map_fin _ (by simpa using hf), getD_map_fin _ (by simp; omega)]
  simp [lerpF]

theorem medianF_map {xs : List ℝ} (hx : xs ≠ []) :
    medianF (xs.map fin) = fin (interpAt (xs.insertionSort (· ≤ ·)) (1 / 2 * ((xs.length : ℝ) - 1))) := by
  have hn : 0 < xs.length := List.length_pos_of_ne_nil hx
  unfold medianF interpAt
  rw [if_neg (nan_notMem_map xs), sortF_map]
  simp only [List.length_map, List.length_insertionSort]
  rcases Nat.even_or_odd' xs.length with ⟨k, hk | hk⟩
  · have hk0 : 0 < k := by omega
    have hv : (1 / 2 * ((xs.length : ℝ) - 1)) = ((k - 1 : ℕ) : ℝ) + 1 / 2 := by
      rw [hk]; push_cast [Nat.cast_sub hk0]; ring
    have hfl : ⌊(1 / 2 * ((xs.length : ℝ) - 1))⌋₊ = k - 1 := by
      rw [hv, Nat.floor_eq_iff (by positivity)]; constructor <;> linarith
    rw [if_neg (by omega), hfl, hv]
    have e1 : xs.length / 2 = k := by omega
    have e2 : min (k - 1 + 1) (xs.length - 1) = k := by omega
    rw [e1, e2, getD_map_fin _ (by simp; omega), getD_map_fin _ (by simp; omega), add_fin, div_fin (by norm_num)]
    congr 1; ring
  · have hv : (1 / 2 * ((xs.length : ℝ) - 1)) = (k : ℝ) := by rw [hk]; push_cast; ring
    rw [if_pos (by omega), hv, Nat.floor_natCast]
    have e1 : xs.length / 2 = k := by omega
    rw [e1, getD_map_fin _ (by simp; omega)]
    simp

/-- the sorted list is monotone in its index -/
theorem sorted_mono {s : List ℝ} (hs : s.Pairwise (· ≤ ·)) {i j : ℕ} (hij : i ≤ j) (hj : j < s.length) : s.getD i 0 ≤ s.getD j 0 := by
  have hi : i < s.length := by omega
  rw [getD_at _ hi, getD_at _ hj]
  rcases Nat.eq_or_lt_of_le hij with h | h
  · subst h; exact le_rfl
  · exact List.pairwise_iff_getElem.mp hs i j hi hj h

theorem filter_lt_length {s : List ℝ} (hs : s.Pairwise (· ≤ ·)) {y : ℝ} {k : ℕ} (hk : k < s.length) (h : y ≤ s.getD k 0) :
    (s.filter fun a => decide (a < y)).length ≤ k := by
  conv_lhs => rw [← List.take_append_drop k s]
  rw [List.filter_append, List.length_append]
  have h2 : (s.drop k).filter (fun a => decide (a < y)) = [] := by
    rw [List.filter_eq_nil_iff]
    intro a ha
    obtain ⟨i, hi, rfl⟩ := List.mem_iff_getElem.mp ha
    rw [List.getElem_drop]
    have := sorted_mono hs (Nat.le_add_right k i) (by simp at hi; omega)
    rw [getD_at _ (by simp at hi; omega : k + i < s.length)] at this
    simp; linarith
  rw [h2]
  have := List.length_filter_le (fun a => decide (a < y)) (s.take k)
  simp at this ⊢
  omega

theorem filter_gt_length {s : List ℝ} (hs : s.Pairwise (· ≤ ·)) {y : ℝ} {k : ℕ} (hk : k < s.length) (h : s.getD k 0 ≤ y) :
    (s.filter fun a => decide (y < a)).length ≤ s.length - 1 - k := by
  conv_lhs => rw [← List.take_append_drop (k + 1) s]
  rw [List.filter_append, List.length_append]
  have h2 : (s.take (k + 1)).filter (fun a => decide (y < a)) = [] := by
    rw [List.filter_eq_nil_iff]
    intro a ha
    obtain ⟨i, hi, rfl⟩ := List.mem_iff_getElem.mp ha
    rw [List.getElem_take]
    have hi' : i < k + 1 := by simp at hi; omega
    have := sorted_mono hs (by omega : i ≤ k) hk
    rw [getD_at _ (by omega : i < s.length)] at this
    simp; linarith
  rw [h2]
  have := List.length_filter_le (fun a => decide (y < a)) (s.drop (k + 1))
  simp at this ⊢
  omega

/-- the interpolated value lies between the neighbouring order statistics -/
theorem interpAt_bounds {s : List ℝ} (hs : s.Pairwise (· ≤ ·)) {v : ℝ} (hv0 : 0 ≤ v) (hv : ⌊v⌋₊ < s.length) :
    s.getD ⌊v⌋₊ 0 ≤ interpAt s v ∧ interpAt s v ≤ s.getD (min (⌊v⌋₊ + 1) (s.length - 1)) 0 := by
  have hm := sorted_mono hs (by omega : ⌊v⌋₊ ≤ min (⌊v⌋₊ + 1) (s.length - 1)) (by omega)
  have h0 : 0 ≤ v - ⌊v⌋₊ := by have := Nat.floor_le hv0; linarith
  have h1 : v - ⌊v⌋₊ ≤ 1 := by have := Nat.lt_floor_add_one v; linarith
  unfold interpAt
  constructor <;> nlinarith

theorem interpAt_natCast (s : List ℝ) (k : ℕ) : interpAt s k = s.getD k 0 := by simp [interpAt]

theorem interpAt_mono {s : List ℝ} (hs : s.Pairwise (· ≤ ·)) {v w : ℝ} (hv0 : 0 ≤ v) (hvw : v ≤ w) (hw : ⌊w⌋₊ < s.length) :
    interpAt s v ≤ interpAt s w := by
  have hfl : ⌊v⌋₊ ≤ ⌊w⌋₊ := Nat.floor_mono hvw
  rcases Nat.eq_or_lt_of_le hfl with h | h
  · unfold interpAt
    rw [h]
    have hm := sorted_mono hs (by omega : ⌊w⌋₊ ≤ min (⌊w⌋₊ + 1) (s.length - 1)) (by omega)
    nlinarith
  · have h1 := (interpAt_bounds hs hv0 (by omega : ⌊v⌋₊ < s.length)).2
    have h2 := (interpAt_bounds hs (hv0.trans hvw) hw).1
    have h3 := sorted_mono hs (by omega : min (⌊v⌋₊ + 1) (s.length - 1) ≤ ⌊w⌋₊) hw
    linarith

theorem nBelow_perm {d e : List ℝ} (h : d.Perm e) (y : ℝ) : nBelow d y = nBelow e y := (h.filter _).length_eq
theorem nAbove_perm {d e : List ℝ} (h : d.Perm e) (y : ℝ) : nAbove d y = nAbove e y := (h.filter _).length_eq

theorem interpAt_quantile {xs : List ℝ} (hx : xs ≠ []) {p : ℝ} (hp0 : 0 ≤ p) (hp1 : p ≤ 1) :
    IsQuantile xs p (interpAt (xs.insertionSort (· ≤ ·)) (p * ((xs.length : ℝ) - 1))) := by
  have hn : 0 < xs.length := List.length_pos_of_ne_nil hx
  have h1 : (1 : ℝ) ≤ xs.length := by exact_mod_cast hn
  set s := xs.insertionSort (· ≤ ·) with hs
  have hp : s.Perm xs := List.perm_insertionSort _ _
  have hlen : s.length = xs.length := hp.length_eq
  have hsort : s.Pairwise (· ≤ ·) := List.pairwise_insertionSort _ _
  set v := p * ((xs.length : ℝ) - 1) with hv
  have hv0 : 0 ≤ v := mul_nonneg hp0 (by linarith)
  have hvn : v ≤ xs.length - 1 := by rw [hv]; nlinarith
  have hf : ⌊v⌋₊ < s.length := by rw [hlen]; exact floor_lt hn hp0 hp1
  have hfv := Nat.floor_le hv0
  have hb := interpAt_bounds hsort hv0 hf
  have hn1 : ((xs.length - 1 : ℕ) : ℝ) = xs.length - 1 := by push_cast [Nat.cast_sub hn]; ring
  unfold IsQuantile
  rw [nBelow_perm hp.symm, nAbove_perm hp.symm]
  constructor
  · rcases eq_or_lt_of_le hfv with h | h
    · have := filter_lt_length hsort hf (y := interpAt s v) (by rw [← h]; simp [interpAt_natCast])
      have : ((nBelow s (interpAt s v) : ℕ) : ℝ) ≤ ⌊v⌋₊ := by exact_mod_cast this
      linarith
    · have hlt : ⌊v⌋₊ + 1 ≤ s.length - 1 := by
        have : (⌊v⌋₊ : ℝ) < ((xs.length - 1 : ℕ) : ℝ) := by rw [hn1]; linarith
        have : ⌊v⌋₊ < xs.length - 1 := by exact_mod_cast this
        omega
      have := filter_lt_length hsort (by omega) (y := interpAt s v) hb.2
      rw [min_eq_left hlt] at this
      have : ((nBelow s (interpAt s v) : ℕ) : ℝ) ≤ (⌊v⌋₊ + 1 : ℕ) := by exact_mod_cast this
      push_cast at this
      linarith
  · have h2 := filter_gt_length hsort hf hb.1
    have h3 : ((nAbove s (interpAt s v) : ℕ) : ℝ) ≤ ((s.length - 1 - ⌊v⌋₊ : ℕ) : ℝ) := by exact_mod_cast h2
    rw [Nat.cast_sub (by omega), hlen, hn1] at h3
    have h4 := Nat.lt_floor_add_one v
    have : (1 - p) * ((xs.length : ℝ) - 1) = xs.length - 1 - v := by rw [hv]; ring
    rw [this]
    linarith

/-! ## C94 -/

theorem plot_pdf_ok {x : List ℝ} {pdf : Curves} {label color : String} {ll : Bool} {D : Drawn}
    (h : plot_pdf x pdf label color ll = .ok D) :
    pdf.rows ≠ [] ∧ x.length = pdf.width ∧ D.x = x ∧ D.label = label ∧ D.color = color ∧ D.loglog = ll ∧
      D.med = (List.range pdf.width).map (fun j => medianF (pdf.col j)) ∧
      D.low = (List.range pdf.width).map (fun j => percentileF (pdf.col j) 5) ∧
      D.high = (List.range pdf.width).map (fun j => percentileF (pdf.col j) 95) := by
  unfold plot_pdf at h
  split_ifs at h with h1 h2
  injection h with h
  subst h
  exact ⟨h1, not_not.mp h2, rfl, rfl, rfl, rfl, rfl, rfl, rfl⟩

/-- **C94.**  At every grid point where all draws are finite, the line drawn is a median of the draws and the band runs from a 5%
to a 95% quantile of them, with the line inside the band.  Partial; missing: draws that are NaN: `C94_nan_draw_fails`. -/
theorem C94_band_partial {x : List ℝ} {pdf : Curves} {label color : String} {ll : Bool} {D : Drawn}
    (h : plot_pdf x pdf label color ll = .ok D) {j : ℕ} (hj : j < x.length) {d : List ℝ} (hd : pdf.rows.map (fun r => r j) = d.map fin) :
    ∃ l m u : ℝ, D.low[j]? = some (fin l) ∧ D.med[j]? = some (fin m) ∧ D.high[j]? = some (fin u) ∧
      l ≤ m ∧ m ≤ u ∧ IsQuantile d 0.05 l ∧ IsQuantile d 0.5 m ∧ IsQuantile d 0.95 u := by
  obtain ⟨hr, hw, -, -, -, -, hmed, hlow, hhigh⟩ := plot_pdf_ok h
  have hdne : d ≠ [] := by
    rintro rfl
    exact hr (by simpa using hd)
  have hn : 0 < d.length := List.length_pos_of_ne_nil hdne
  have h1 : (1 : ℝ) ≤ d.length := by exact_mod_cast hn
  have hcol : pdf.col j = d.map fin := hd
  have hjw : j < pdf.width := hw ▸ hj
  refine ⟨interpAt (d.insertionSort (· ≤ ·)) (5 / 100 * ((d.length : ℝ) - 1)),
    interpAt (d.insertionSort (· ≤ ·)) (1 / 2 * ((d.length : ℝ) - 1)),
    interpAt (d.insertionSort (· ≤ ·)) (95 / 100 * ((d.length : ℝ) - 1)), ?_, ?_, ?_, ?_, ?_, ?_, ?_, ?_⟩
  · rw [hlow]; simp [hjw, hcol, percentileF_map hdne (q := 5) (by norm_num) (by norm_num)]
  · rw [hmed]; simp [hjw, hcol, medianF_map hdne]
  · rw [hhigh]; simp [hjw, hcol, percentileF_map hdne (q := 95) (by norm_num) (by norm_num)]
  · refine interpAt_mono (List.pairwise_insertionSort _ _) (by nlinarith) (by nlinarith) ?_
    simpa using floor_lt hn (p := 1 / 2) (by norm_num) (by norm_num)
  · refine interpAt_mono (List.pairwise_insertionSort _ _) (by nlinarith) (by nlinarith) ?_
    simpa using floor_lt hn (p := 95 / 100) (by norm_num) (by norm_num)
  · have := interpAt_quantile hdne (p := 0.05) (by norm_num) (by norm_num)
    norm_num at this ⊢; exact this
  · have := interpAt_quantile hdne (p := 0.5) (by norm_num) (by norm_num)
    norm_num at this ⊢; exact this
  · have := interpAt_quantile hdne (p := 0.95) (by norm_num) (by norm_num)
    norm_num at this ⊢; exact this

theorem filter_split (d : List ℝ) {l u : ℝ} (hlu : l ≤ u) :
    d.length = nBelow d l + (d.filter fun a => decide (l ≤ a ∧ a ≤ u)).length + nAbove d u := by
  induction d with
  | nil => rfl
  | cons a d ih =>
    unfold nBelow nAbove at *
    by_cases h1 : a < l
    · have : ¬ (l ≤ a ∧ a ≤ u) := fun h => by linarith [h.1]
      have : ¬ u < a := by linarith
      simp only [List.filter_cons, h1, decide_true, if_true, List.length_cons, *]
      simp_all; omega
    · by_cases h2 : u < a
      · have : ¬ (l ≤ a ∧ a ≤ u) := fun h => by linarith [h.2]
        simp_all; omega
      · have : l ≤ a ∧ a ≤ u := ⟨by linarith, by linarith⟩
        simp_all; omega

/-- **C94.**  The shaded band contains at least 90% of the draws, up to two: of `n` draws more than `0.9 n - 1.9` lie in it. -/
theorem C94_coverage {x : List ℝ} {pdf : Curves} {label color : String} {ll : Bool} {D : Drawn}
    (h : plot_pdf x pdf label color ll = .ok D) {j : ℕ} (hj : j < x.length) {d : List ℝ} (hd : pdf.rows.map (fun r => r j) = d.map fin) :
    ∃ l u : ℝ, D.low[j]? = some (fin l) ∧ D.high[j]? = some (fin u) ∧
      0.9 * (d.length : ℝ) - 1.9 < ((d.filter fun a => decide (l ≤ a ∧ a ≤ u)).length : ℝ) := by
  obtain ⟨l, m, u, h1, h2, h3, h4, h5, h6, h7, h8⟩ := C94_band_partial h hj hd
  refine ⟨l, u, h1, h3, ?_⟩
  have hs := filter_split d (h4.trans h5)
  have hs' : (d.length : ℝ) = nBelow d l + (d.filter fun a => decide (l ≤ a ∧ a ≤ u)).length + nAbove d u := by exact_mod_cast hs
  have ha := h6.1
  have hb := h8.2
  norm_num at ha hb
  have e : (0.9 : ℝ) = 9 / 10 := by norm_num
  have e' : (1.9 : ℝ) = 19 / 10 := by norm_num
  rw [e, e']
  linarith

/-- **C94.**  The plot does not depend on the order of the posterior draws. -/
theorem C94_order (x : List ℝ) (rows rows' : List (ℕ → F)) (w : ℕ) (hp : rows.Perm rows')
    (hfin : ∀ r ∈ rows, ∀ j < w, (r j).isfinite ∨ r j = nan) (label color : String) (ll : Bool) :
    plot_pdf x ⟨rows, w⟩ label color ll = plot_pdf x ⟨rows', w⟩ label color ll := by
  have key : ∀ j < w, ((⟨rows, w⟩ : Curves).col j).Perm ((⟨rows', w⟩ : Curves).col j) := fun j _ => hp.map _
  have hcol : ∀ j < w, nan ∉ (⟨rows, w⟩ : Curves).col j → ∃ d d' : List ℝ, (⟨rows, w⟩ : Curves).col j = d.map fin ∧
      (⟨rows', w⟩ : Curves).col j = d'.map fin ∧ d.Perm d' := by
    intro j hj hnan
    have hf : ∀ a ∈ (⟨rows, w⟩ : Curves).col j, a.isfinite := by
      intro a ha
      obtain ⟨r, hr, rfl⟩ := List.mem_map.mp ha
      rcases hfin r hr j hj with h | h
      · exact h
      · exact absurd (h ▸ ha) hnan
    let g : F → ℝ := fun a => match a with | fin t => t | _ => 0
    have hg : ∀ a : F, a.isfinite → fin (g a) = a := by rintro _ ⟨t, rfl⟩; rfl
    refine ⟨((⟨rows, w⟩ : Curves).col j).map g, ((⟨rows', w⟩ : Curves).col j).map g, ?_, ?_, (key j hj).map g⟩
    · rw [List.map_map]; symm; rw [List.map_congr_left (f := fin ∘ g) (g := id) (fun a ha => hg a (hf a ha)), List.map_id]
    · rw [List.map_map]; symm
      rw [List.map_congr_left (f := fin ∘ g) (g := id) (fun a ha => hg a (hf a ((key j hj).mem_iff.mpr ha))), List.map_id]
  have hsort : ∀ d d' : List ℝ, d.Perm d' → d.insertionSort (· ≤ ·) = d'.insertionSort (· ≤ ·) := fun d d' hdd =>
    (((List.perm_insertionSort _ d).trans hdd).trans (List.perm_insertionSort _ d').symm).eq_of_pairwise'
      (List.pairwise_insertionSort _ _) (List.pairwise_insertionSort _ _)
  have hperc : ∀ j < w, ∀ q, percentileF ((⟨rows, w⟩ : Curves).col j) q = percentileF ((⟨rows', w⟩ : Curves).col j) q := by
    intro j hj q
    by_cases hnan : nan ∈ (⟨rows, w⟩ : Curves).col j
    · unfold percentileF; rw [if_pos hnan, if_pos ((key j hj).mem_iff.mp hnan)]
    · obtain ⟨d, d', e, e', hdd⟩ := hcol j hj hnan
      unfold percentileF
      rw [e, e', sortF_map, sortF_map, hsort d d' hdd]
      simp [hdd.length_eq]
  have hmed : ∀ j < w, medianF ((⟨rows, w⟩ : Curves).col j) = medianF ((⟨rows', w⟩ : Curves).col j) := by
    intro j hj
    by_cases hnan : nan ∈ (⟨rows, w⟩ : Curves).col j
    · unfold medianF; rw [if_pos hnan, if_pos ((key j hj).mem_iff.mp hnan)]
    · obtain ⟨d, d', e, e', hdd⟩ := hcol j hj hnan
      unfold medianF
      rw [e, e', sortF_map, sortF_map, hsort d d' hdd]
      simp [hdd.length_eq]
  have hnil : rows = [] ↔ rows' = [] := by
    constructor
    · rintro rfl; exact hp.nil_eq.symm
    · rintro rfl; exact hp.eq_nil
  unfold plot_pdf
  simp only [hnil]
  split_ifs
  · rfl
  · rfl
  · congr 2
    · exact List.map_congr_left fun j hj => hmed j (List.mem_range.mp hj)
    · exact List.map_congr_left fun j hj => hperc j (List.mem_range.mp hj) 5
    · exact List.map_congr_left fun j hj => hperc j (List.mem_range.mp hj) 95

/-- **C94 is false at a grid point where one single draw is NaN**: median and band are NaN there, whatever the other draws are, so
nothing is drawn. -/
theorem C94_nan_draw_fails {x : List ℝ} {pdf : Curves} {label color : String} {ll : Bool} {D : Drawn}
    (h : plot_pdf x pdf label color ll = .ok D) {j : ℕ} (hj : j < x.length) {r : ℕ → F} (hr : r ∈ pdf.rows) (hn : r j = nan) :
    D.low[j]? = some nan ∧ D.med[j]? = some nan ∧ D.high[j]? = some nan := by
  obtain ⟨-, hw, -, -, -, -, hmed, hlow, hhigh⟩ := plot_pdf_ok h
  have hjw : j < pdf.width := hw ▸ hj
  have hmem : nan ∈ pdf.col j := List.mem_map.mpr ⟨r, hr, hn⟩
  rw [hmed, hlow, hhigh]
  simp [hjw, percentileF, medianF, hmem]

/-- Three draws on a two-point grid meet the hypotheses of C94; the second draw is the median at both points. -/
example : ∃ D, plot_pdf [0, 1] ⟨[fun _ => fin 1, fun _ => fin 2, fun _ => fin 5], 2⟩ "a" "red" false = .ok D ∧
    ∃ m : ℝ, D.med[1]? = some (fin m) ∧ IsQuantile [1, 2, 5] 0.5 m := by
  refine ⟨_, rfl, ?_⟩
  obtain ⟨l, m, u, -, h2, -, -, -, -, h7, -⟩ := C94_band_partial (x := [0, 1])
    (pdf := ⟨[fun _ => fin 1, fun _ => fin 2, fun _ => fin 5], 2⟩) (label := "a") (color := "red") (ll := false) rfl
    (j := 1) (by simp) (d := [1, 2, 5]) (by simp)
  exact ⟨m, h2, h7⟩

/-! ## C95 -/

theorem pyGet_ok {α : Type} {xs : List α} {i : ℕ} {a : α} : pyGet xs i = .ok a ↔ xs[i]? = some a := by
  unfold pyGet
  split <;> rename_i h <;> simp [h]

theorem pyGet_err {α : Type} {xs : List α} {i : ℕ} (h : xs.length ≤ i) : pyGet xs i = .error .indexError := by
  unfold pyGet; rw [List.getElem?_eq_none h]

/-- The loop succeeds exactly when every population has a name, a colour and curves that can be drawn, and then draws population
`i` as the `i`-th curve. -/
theorem plotLoop_ok {x : List ℝ} {pdfs : List Curves} {names colors : List String} {ll : Bool} {n : ℕ} {ds : List Drawn} :
    plotLoop x pdfs names colors ll n = .ok ds ↔
      ds.length = n ∧ ∀ i < n, ∃ p nm c d, pdfs[i]? = some p ∧ names[i]? = some nm ∧ colors[i]? = some c ∧ ds[i]? = some d ∧
        plot_pdf x p nm c ll = .ok d := by
  induction n generalizing ds with
  | zero => simp [plotLoop, eq_comm, Except.ok.injEq]
  | succ n ih =>
    constructor
    · intro h
      simp only [plotLoop, bind, Except.bind] at h
      split at h
      · cases h
      rename_i ds0 h0
      split at h
      · cases h
      rename_i p hp
      split at h
      · cases h
      rename_i nm hnm
      split at h
      · cases h
      rename_i c hc
      split at h
      · cases h
      rename_i d hd
      injection h with h
      subst h
      obtain ⟨hl, hi⟩ := ih.mp h0
      refine ⟨by simp [hl], fun i hlt => ?_⟩
      rcases Nat.lt_succ_iff_lt_or_eq.mp hlt with h | h
      · obtain ⟨p', nm', c', d', e1, e2, e3, e4, e5⟩ := hi i h
        exact ⟨p', nm', c', d', e1, e2, e3, by rw [List.getElem?_append_left (by omega)]; exact e4, e5⟩
      · subst h
        exact ⟨p, nm, c, d, pyGet_ok.mp hp, pyGet_ok.mp hnm, pyGet_ok.mp hc, by simp [← hl], hd⟩
    · rintro ⟨hl, hi⟩
      have h0 : plotLoop x pdfs names colors ll n = .ok (ds.take n) := by
        refine ih.mpr ⟨by simp [hl], fun i h => ?_⟩
        obtain ⟨p', nm', c', d', e1, e2, e3, e4, e5⟩ := hi i (by omega)
        exact ⟨p', nm', c', d', e1, e2, e3, by rw [List.getElem?_take_of_lt h]; exact e4, e5⟩
      obtain ⟨p, nm, c, d, e1, e2, e3, e4, e5⟩ := hi n (by omega)
      simp only [plotLoop, bind, Except.bind, h0, pyGet_ok.mpr e1, pyGet_ok.mpr e2, pyGet_ok.mpr e3, e5]
      congr 1
      have hd : ds.drop n = [d] := by
        rw [List.drop_eq_getElem_cons (by omega)]
        have : ds[n]'(by omega) = d := by
          have := List.getElem?_eq_getElem (l := ds) (i := n) (by omega)
          rw [this] at e4; injection e4
        rw [this, List.drop_eq_nil_of_le (by omega)]
      rw [← hd, List.take_append_drop]

theorem plotLoop_few_colors {x : List ℝ} {pdfs : List Curves} {names colors : List String} {ll : Bool} {n : ℕ}
    (h : colors.length < n) : ∃ e, plotLoop x pdfs names colors ll n = .error e := by
  rcases hr : plotLoop x pdfs names colors ll n with e | ds
  · exact ⟨e, rfl⟩
  · obtain ⟨_, _, c, _, _, _, hc, _⟩ := (plotLoop_ok.mp hr).2 colors.length h
    simp at hc

/-- The curves a figure must show: population `i` under its own name and colour, over the given grid. -/
def ShowsAll (fig : List Drawn) (x : List ℝ) (pdfs : List Curves) (names colors : List String) : Prop :=
  fig.length = pdfs.length ∧ ∀ i < pdfs.length, ∃ p nm c d ll, pdfs[i]? = some p ∧ names[i]? = some nm ∧ colors[i]? = some c ∧
    fig[i]? = some d ∧ plot_pdf x p nm c ll = .ok d

/-- the curves can be drawn over the grid -/
def Drawable (x : List ℝ) (pdfs : List Curves) : Prop := ∀ p ∈ pdfs, p.rows ≠ [] ∧ p.width = x.length

theorem plotLoop_total {x : List ℝ} {pdfs : List Curves} {names colors : List String} (ll : Bool)
    (hd : Drawable x pdfs) (hn : pdfs.length ≤ names.length) (hc : pdfs.length ≤ colors.length) :
    ∃ fig, plotLoop x pdfs names colors ll pdfs.length = .ok fig ∧ ShowsAll fig x pdfs names colors := by
  have : ∀ n ≤ pdfs.length, ∃ fig, plotLoop x pdfs names colors ll n = .ok fig := by
    intro n
    induction n with
    | zero => exact fun _ => ⟨[], rfl⟩
    | succ n ih =>
      intro h
      obtain ⟨f, hf⟩ := ih (by omega)
      obtain ⟨h1, h2⟩ := hd pdfs[n] (List.getElem_mem _)
      obtain ⟨D, hp⟩ : ∃ D, plot_pdf x pdfs[n] names[n] colors[n] ll = .ok D := by
        unfold plot_pdf; rw [if_neg h1, if_neg (not_not.mpr h2.symm)]; exact ⟨_, rfl⟩
      exact ⟨_, by
        simp only [plotLoop, bind, Except.bind, hf, pyGet_ok.mpr (List.getElem?_eq_getElem (by omega : n < pdfs.length)),
          pyGet_ok.mpr (List.getElem?_eq_getElem (by omega : n < names.length)),
          pyGet_ok.mpr (List.getElem?_eq_getElem (by omega : n < colors.length)), hp]; rfl⟩
  obtain ⟨fig, hf⟩ := this _ le_rfl
  refine ⟨fig, hf, (plotLoop_ok.mp hf).1, fun i hi => ?_⟩
  obtain ⟨p, nm, c, d, e1, e2, e3, e4, e5⟩ := (plotLoop_ok.mp hf).2 i hi
  exact ⟨p, nm, c, d, ll, e1, e2, e3, e4, e5⟩

/-- **C95, partial** (missing: more populations than colours, see `C95_default_colors_fails`).  With a name and a colour for every
population, `plot_mass_pdfs` completes and with `save` writes exactly the two named files, each showing every population. -/
theorem C95_mass_partial (mpdfs qpdfs : List Curves) (m1 q : List ℝ) (names colors : List String) (label dir : String) (save : Bool)
    (hm : Drawable m1 mpdfs) (hq : Drawable q qpdfs) (hl : qpdfs.length = mpdfs.length)
    (hn : mpdfs.length ≤ names.length) (hc : mpdfs.length ≤ colors.length) :
    ∃ f1 f2, ShowsAll f1 m1 mpdfs names colors ∧ ShowsAll f2 q qpdfs names colors ∧
      plot_mass_pdfs mpdfs qpdfs m1 q names label dir save colors =
        (if save then [(dir ++ "/mass_pdf_" ++ label ++ ".png", f1), (dir ++ "/mass_ratio_pdf_" ++ label ++ ".png", f2)] else [], none) := by
  obtain ⟨f1, h1, s1⟩ := plotLoop_total true hm hn hc
  obtain ⟨f2, h2, s2⟩ := plotLoop_total (names := names) (colors := colors) false hq (hl ▸ hn) (hl ▸ hc)
  refine ⟨f1, f2, s1, s2, ?_⟩
  unfold plot_mass_pdfs twoFigures
  rw [h1, ← hl, h2]
  cases save <;> simp [String.append_assoc]

/-- **C95, partial.**  The same for `plot_spin_pdfs`; the files of the primary and of the secondary spins differ. -/
theorem C95_spin_partial (apdfs tpdfs : List Curves) (aa cc : List ℝ) (names colors : List String) (label dir : String)
    (save secondary : Bool) (hm : Drawable aa apdfs) (hq : Drawable cc tpdfs)
    (hn : apdfs.length ≤ names.length) (hc : apdfs.length ≤ colors.length)
    (hn' : tpdfs.length ≤ names.length) (hc' : tpdfs.length ≤ colors.length) :
    ∃ f1 f2, ShowsAll f1 aa apdfs names colors ∧ ShowsAll f2 cc tpdfs names colors ∧
      plot_spin_pdfs apdfs tpdfs aa cc names label dir save colors secondary =
        (if save then [(dir ++ (if secondary then "/spin_mag2_pdf_" else "/spin_mag1_pdf_") ++ label ++ ".png", f1),
          (dir ++ (if secondary then "/cos_tilt2_pdf_" else "/cos_tilt1_pdf_") ++ label ++ ".png", f2)] else [], none) := by
  obtain ⟨f1, h1, s1⟩ := plotLoop_total false hm hn hc
  obtain ⟨f2, h2, s2⟩ := plotLoop_total (names := names) (colors := colors) false hq hn' hc'
  refine ⟨f1, f2, s1, s2, ?_⟩
  unfold plot_spin_pdfs twoFigures
  simp only [h1, h2]
  cases save <;> cases secondary <;> simp <;> constructor <;> simp [← String.toList_inj]

/-- **C95 is false with the default colours** as soon as there are more than three populations: the call raises and writes nothing,
even when every population has curves and a name. -/
theorem C95_default_colors_fails (mpdfs qpdfs : List Curves) (m1 q : List ℝ) (names : List String) (label dir : String) (save : Bool)
    (h : 3 < mpdfs.length) : ∃ e, plot_mass_pdfs mpdfs qpdfs m1 q names label dir save = ([], some e) := by
  obtain ⟨e, he⟩ := plotLoop_few_colors (x := m1) (pdfs := mpdfs) (names := names) (colors := defaultColors) (ll := true)
    (n := mpdfs.length) (by simpa [defaultColors] using h)
  exact ⟨e, by unfold plot_mass_pdfs twoFigures; rw [he]⟩

/-- **C95.**  `plot_rate_of_z_pdfs` with `save` writes exactly its one file, with the band of the given curves. -/
theorem C95_rate (p : Curves) (z : List ℝ) (label dir : String) (save : Bool) (hd : Drawable z [p]) :
    ∃ d, plot_pdf z p "redshift" "blue" true = .ok d ∧
      plot_rate_of_z_pdfs p z label dir save = (if save then [(dir ++ "/redshift_pdf_" ++ label ++ ".png", [d])] else [], none) := by
  obtain ⟨h1, h2⟩ := hd p (by simp)
  obtain ⟨D, hp⟩ : ∃ D, plot_pdf z p "redshift" "blue" true = .ok D := by
    unfold plot_pdf; rw [if_neg h1, if_neg (not_not.mpr h2.symm)]; exact ⟨_, rfl⟩
  refine ⟨_, hp, ?_⟩
  unfold plot_rate_of_z_pdfs
  rw [hp]
  cases save <;> simp [String.append_assoc]

/-- Two populations with two names and the default colours meet the hypotheses of `C95_mass_partial`. -/
example : ∃ f1 f2, ShowsAll f1 [2, 100] [⟨[fun _ => fin 1], 2⟩, ⟨[fun _ => fin 3], 2⟩] ["A", "B"] defaultColors ∧
    plot_mass_pdfs [⟨[fun _ => fin 1], 2⟩, ⟨[fun _ => fin 3], 2⟩] [⟨[fun _ => fin 1], 1⟩, ⟨[fun _ => fin 2], 1⟩] [2, 100] [1] ["A", "B"]
      "run" "out" = ([("out/mass_pdf_run.png", f1), ("out/mass_ratio_pdf_run.png", f2)], none) := by
  obtain ⟨f1, f2, h1, -, h⟩ := C95_mass_partial [⟨[fun _ => fin 1], 2⟩, ⟨[fun _ => fin 3], 2⟩] [⟨[fun _ => fin 1], 1⟩, ⟨[fun _ => fin 2], 1⟩]
    [2, 100] [1] ["A", "B"] defaultColors "run" "out" true
    (by intro p hp; simp at hp; rcases hp with rfl | rfl <;> simp)
    (by intro p hp; simp at hp; rcases hp with rfl | rfl <;> simp) rfl (by simp) (by simp [defaultColors])
  exact ⟨f1, f2, h1, h⟩

end GW
