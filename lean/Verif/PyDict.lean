import Mathlib.Data.List.Basic

/-! # Python dictionaries: insertion-ordered association lists -/

namespace GW

/-- a Python `dict` with string keys, in insertion order -/
abbrev PyDict (α : Type) := List (String × α)

namespace PyDict
variable {α : Type}

/-- `d[k]` / `d.get(k)` -/
def get? : PyDict α → String → Option α
  | [], _ => none
  | (k', v) :: d, k => if k' = k then some v else get? d k

/-- `d[k] = v`: overwrites in place, or appends. -/
def set : PyDict α → String → α → PyDict α
  | [], k, v => [(k, v)]
  | (k', v') :: d, k, v => if k' = k then (k', v) :: d else (k', v') :: set d k v

/-- `d.keys()` -/
def keys (d : PyDict α) : List String := d.map Prod.fst

@[simp] theorem get?_nil (k : String) : get? ([] : PyDict α) k = none := rfl

theorem get?_set_self (d : PyDict α) (k : String) (v : α) : (d.set k v).get? k = some v := by
  induction d with
  | nil => simp [set, get?]
  | cons p d ih =>
    obtain ⟨k', v'⟩ := p
    by_cases h : k' = k <;> simp [set, get?, h, ih]

theorem get?_set_ne (d : PyDict α) {k k' : String} (v : α) (h : k' ≠ k) : (d.set k v).get? k' = d.get? k' := by
  induction d with
  | nil => simp [set, get?, h.symm]
  | cons p d ih =>
    obtain ⟨a, b⟩ := p
    by_cases h1 : a = k
    · subst h1; simp [set, get?, h.symm]
    · by_cases h2 : a = k'
      · subst h2; simp [set, get?, h1]
      · simp [set, get?, h1, h2, ih]

theorem get?_set (d : PyDict α) (k k' : String) (v : α) : (d.set k v).get? k' = if k' = k then some v else d.get? k' := by
  by_cases h : k' = k
  · subst h; rw [get?_set_self, if_pos rfl]
  · rw [get?_set_ne d v h, if_neg h]

theorem mem_keys_iff (d : PyDict α) (k : String) : k ∈ d.keys ↔ ∃ v, d.get? k = some v := by
  induction d with
  | nil => simp [keys, get?]
  | cons p d ih =>
    obtain ⟨a, b⟩ := p
    simp only [keys, List.map_cons, List.mem_cons, get?]
    by_cases h : a = k
    · simp [h]
    · simp only [h, if_false, Ne.symm h, false_or]; exact ih

theorem get?_none_iff (d : PyDict α) (k : String) : d.get? k = none ↔ k ∉ d.keys := by
  rw [mem_keys_iff]
  cases h : d.get? k <;> simp

theorem mem_of_get? {d : PyDict α} {k : String} {v : α} (h : d.get? k = some v) : (k, v) ∈ d := by
  induction d with
  | nil => simp at h
  | cons p d ih =>
    obtain ⟨a, b⟩ := p
    simp only [get?] at h
    by_cases h1 : a = k
    · simp [h1] at h; simp [h1, h]
    · simp only [h1, if_false] at h; exact List.mem_cons_of_mem _ (ih h)

theorem get?_of_mem {d : PyDict α} (hd : d.keys.Nodup) {k : String} {v : α} (h : (k, v) ∈ d) : d.get? k = some v := by
  induction d with
  | nil => simp at h
  | cons p d ih =>
    obtain ⟨a, b⟩ := p
    simp only [keys, List.map_cons, List.nodup_cons] at hd
    rcases List.mem_cons.1 h with h | h
    · simp only [Prod.mk.injEq] at h; simp [get?, h]
    · have : a ≠ k := by
        intro e; subst e
        exact hd.1 (List.mem_map.2 ⟨(a, v), h, rfl⟩)
      simp only [get?, this, if_false]; exact ih hd.2 h

theorem keys_set (d : PyDict α) (k : String) (v : α) : (d.set k v).keys = if k ∈ d.keys then d.keys else d.keys ++ [k] := by
  induction d with
  | nil => simp [set, keys]
  | cons p d ih =>
    obtain ⟨a, b⟩ := p
    by_cases h : a = k
    · simp [set, keys, h]
    · have e : keys ((a, b) :: d) = a :: keys d := rfl
      have e2 : set ((a, b) :: d) k v = (a, b) :: set d k v := by simp [set, h]
      rw [e2, e, show keys ((a, b) :: set d k v) = a :: keys (set d k v) from rfl, ih]
      by_cases h2 : k ∈ keys d
      · simp [h2]
      · simp [h2, Ne.symm h]

theorem mem_keys_set (d : PyDict α) (k k' : String) (v : α) : k' ∈ (d.set k v).keys ↔ k' = k ∨ k' ∈ d.keys := by
  rw [mem_keys_iff, mem_keys_iff, get?_set]
  by_cases h : k' = k <;> simp [h]

theorem nodup_set (d : PyDict α) (hd : d.keys.Nodup) (k : String) (v : α) : (d.set k v).keys.Nodup := by
  rw [keys_set]
  split_ifs with h
  · exact hd
  · exact List.nodup_append.2 ⟨hd, by simp, by intro a ha b hb; simp at hb; subst hb; exact fun e => h (e ▸ ha)⟩

end PyDict
end GW
