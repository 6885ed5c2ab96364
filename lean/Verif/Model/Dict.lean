import Mathlib.Data.List.Nodup

/-! # Python dictionaries as association lists in insertion order -/

namespace PK

/-- A Python `dict` (keys in insertion order). -/
abbrev Dict (K V : Type*) := List (K × V)

namespace Dict
variable {K V : Type*} [DecidableEq K]

/-- `d[k] = v`: overwrite in place, or append. -/
def set (d : Dict K V) (k : K) (v : V) : Dict K V :=
  match d with
  | [] => [(k, v)]
  | (k', v') :: r => if k' = k then (k, v) :: r else (k', v') :: set r k v

/-- `d.get(k)`. -/
def get? (d : Dict K V) (k : K) : Option V :=
  match d with
  | [] => none
  | (k', v') :: r => if k' = k then some v' else get? r k

/-- `list(d.keys())`. -/
def keys (d : Dict K V) : List K := d.map Prod.fst

theorem get?_set (d : Dict K V) (k : K) (v : V) (k' : K) :
    (d.set k v).get? k' = if k = k' then some v else d.get? k' := by
  induction d with
  | nil => simp [set, get?]
  | cons p r ih =>
    obtain ⟨a, b⟩ := p
    by_cases h : a = k
    · subst h
      by_cases h' : a = k' <;> simp [set, get?, h']
    · rw [show set ((a, b) :: r) k v = (a, b) :: set r k v by simp [set, h]]
      by_cases ha : a = k'
      · have : k ≠ k' := fun e => h (ha.trans e.symm)
        simp [get?, ha, this]
      · simp [get?, ha, ih]

theorem get?_eq_none_iff (d : Dict K V) (k : K) : d.get? k = none ↔ k ∉ d.keys := by
  induction d with
  | nil => simp [get?, keys]
  | cons p r ih =>
    obtain ⟨a, b⟩ := p
    by_cases h : a = k
    · simp [get?, keys, h]
    · simp only [get?, h, if_false, ih, keys, List.map_cons, List.mem_cons, not_or]
      exact ⟨fun hh => ⟨fun e => h e.symm, hh⟩, fun hh => hh.2⟩

theorem keys_set_of_mem (d : Dict K V) (k : K) (v : V) (h : k ∈ d.keys) : (d.set k v).keys = d.keys := by
  induction d with
  | nil => simp [keys] at h
  | cons p r ih =>
    obtain ⟨a, b⟩ := p
    by_cases ha : a = k
    · simp [set, keys, ha]
    · have : k ∈ keys r := by simpa [keys, Ne.symm ha] using h
      simp only [set, ha, if_false]
      simp only [keys, List.map_cons] at *
      rw [ih this]

theorem keys_set_of_not_mem (d : Dict K V) (k : K) (v : V) (h : k ∉ d.keys) :
    (d.set k v) = d ++ [(k, v)] := by
  induction d with
  | nil => simp [set]
  | cons p r ih =>
    obtain ⟨a, b⟩ := p
    simp only [keys, List.map_cons, List.mem_cons, not_or] at h
    simp only [set, Ne.symm h.1, if_false, ih h.2, List.cons_append]

theorem get?_of_mem {d : Dict K V} (hn : d.keys.Nodup) {k : K} {v : V} (h : (k, v) ∈ d) : d.get? k = some v := by
  induction d with
  | nil => simp at h
  | cons p r ih =>
    obtain ⟨a, b⟩ := p
    simp only [keys, List.map_cons, List.nodup_cons] at hn
    rcases List.mem_cons.1 h with h | h
    · cases h; simp [get?]
    · have : a ≠ k := by
        rintro rfl; exact hn.1 (List.mem_map.2 ⟨_, h, rfl⟩)
      simp [get?, this, ih hn.2 h]

theorem mem_of_get? {d : Dict K V} {k : K} {v : V} (h : d.get? k = some v) : (k, v) ∈ d := by
  induction d with
  | nil => simp [get?] at h
  | cons p r ih =>
    obtain ⟨a, b⟩ := p
    by_cases ha : a = k
    · simp [get?, ha] at h; simp [ha, h]
    · simp [get?, ha] at h; exact List.mem_cons_of_mem _ (ih h)

end Dict
end PK
