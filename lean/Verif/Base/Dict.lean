/-
Python `dict` (CPython >= 3.7 insertion order): an association list whose keys are unique.
`Dict.set` on an existing key replaces the value in place, on a new key appends.
This file is infrastructure shared by the models; it models the Python builtin, not a /repo file.
-/

/-- Insertion-ordered Python dictionary. -/
abbrev Dict (K V : Type) := List (K × V)

namespace Dict
variable {K V W : Type} [DecidableEq K]

/-- `d.get(k)` -/
def get? : Dict K V → K → Option V
  | [], _ => none
  | (k', v) :: d, k => if k' = k then some v else get? d k

/-- `d[k] = v` -/
def set : Dict K V → K → V → Dict K V
  | [], k, v => [(k, v)]
  | (k', v') :: d, k, v => if k' = k then (k', v) :: d else (k', v') :: set d k v

/-- `d.pop(k, None)` / `del d[k]` (no error case) -/
def del : Dict K V → K → Dict K V
  | [], _ => []
  | (k', v') :: d, k => if k' = k then del d k else (k', v') :: del d k

/-- `list(d.keys())` -/
def keys (d : Dict K V) : List K := d.map Prod.fst

/-- `list(d.values())` -/
def vals (d : Dict K V) : List V := d.map Prod.snd

/-- `k in d` -/
def has (d : Dict K V) (k : K) : Bool := (d.get? k).isSome

@[simp] theorem get?_nil (k : K) : get? ([] : Dict K V) k = none := rfl

theorem get?_set (d : Dict K V) (k k' : K) (v : V) :
    (d.set k v).get? k' = if k = k' then some v else d.get? k' := by
  induction d with
  | nil => simp [set, get?]
  | cons p d ih =>
    obtain ⟨a, b⟩ := p
    by_cases h : a = k
    · subst h
      by_cases h2 : a = k' <;> simp [set, get?, h2]
    · by_cases h2 : a = k'
      · subst h2
        have : ¬ k = a := fun e => h e.symm
        simp [set, get?, h, this]
      · simp [set, get?, h, h2, ih]

@[simp] theorem get?_set_self (d : Dict K V) (k : K) (v : V) : (d.set k v).get? k = some v := by
  simp [get?_set]

theorem get?_set_ne (d : Dict K V) {k k' : K} (v : V) (h : k ≠ k') :
    (d.set k v).get? k' = d.get? k' := by
  simp [get?_set, h]

theorem mem_keys_iff (d : Dict K V) (k : K) : k ∈ d.keys ↔ ∃ v, d.get? k = some v := by
  induction d with
  | nil => simp [keys]
  | cons p d ih =>
    obtain ⟨a, b⟩ := p
    by_cases h : a = k
    · subst h; simp [keys, get?]
    · have h' : ¬ k = a := fun e => h e.symm
      simp only [keys, List.map_cons, List.mem_cons, h', false_or, get?, h, if_false]
      exact ih

theorem not_mem_keys_iff (d : Dict K V) (k : K) : k ∉ d.keys ↔ d.get? k = none := by
  rw [mem_keys_iff]
  cases h : d.get? k <;> simp

theorem has_iff (d : Dict K V) (k : K) : d.has k = true ↔ k ∈ d.keys := by
  rw [mem_keys_iff, has, Option.isSome_iff_exists]

theorem keys_set_of_mem (d : Dict K V) {k : K} (v : V) (h : k ∈ d.keys) :
    (d.set k v).keys = d.keys := by
  induction d with
  | nil => simp [keys] at h
  | cons p d ih =>
    obtain ⟨a, b⟩ := p
    by_cases h2 : a = k
    · simp [set, keys, h2]
    · have h' : ¬ k = a := fun e => h2 e.symm
      have : k ∈ keys d := by simpa [keys, h'] using h
      have := ih this
      simp only [keys] at this ⊢
      simp [set, h2, this]

theorem set_of_not_mem (d : Dict K V) {k : K} (v : V) (h : k ∉ d.keys) :
    d.set k v = d ++ [(k, v)] := by
  induction d with
  | nil => simp [set]
  | cons p d ih =>
    obtain ⟨a, b⟩ := p
    have h1 : ¬ a = k := by
      intro e; apply h; simp [keys, e]
    have h2 : k ∉ keys d := by
      intro e; apply h; simp only [keys, List.map_cons, List.mem_cons]; exact Or.inr e
    simp [set, h1, ih h2]

theorem mem_keys_set (d : Dict K V) (k k' : K) (v : V) :
    k' ∈ (d.set k v).keys ↔ k' = k ∨ k' ∈ d.keys := by
  simp only [mem_keys_iff, get?_set]
  by_cases h : k = k'
  · simp [h]
  · have : ¬ k' = k := fun e => h e.symm
    simp [h, this]

theorem nodup_keys_set (d : Dict K V) (k : K) (v : V) (h : d.keys.Nodup) :
    (d.set k v).keys.Nodup := by
  by_cases hk : k ∈ d.keys
  · rw [keys_set_of_mem d v hk]; exact h
  · rw [set_of_not_mem d v hk]
    simp only [keys, List.map_append, List.map_cons, List.map_nil]
    rw [List.nodup_append]
    refine ⟨h, by simp, ?_⟩
    intro a ha b hb
    simp at hb
    subst hb
    intro e; subst e; exact hk ha

theorem get?_eq_some_of_mem (d : Dict K V) (h : d.keys.Nodup) {k : K} {v : V}
    (hm : (k, v) ∈ d) : d.get? k = some v := by
  induction d with
  | nil => simp at hm
  | cons p d ih =>
    obtain ⟨a, b⟩ := p
    simp only [keys, List.map_cons, List.nodup_cons] at h
    rcases List.mem_cons.mp hm with he | hm
    · cases he; simp [get?]
    · have : ¬ a = k := by
        intro e; subst e
        exact h.1 (List.mem_map.mpr ⟨_, hm, rfl⟩)
      simp [get?, this, ih h.2 hm]

theorem mem_of_get?_eq_some (d : Dict K V) {k : K} {v : V}
    (h : d.get? k = some v) : (k, v) ∈ d := by
  induction d with
  | nil => simp at h
  | cons p d ih =>
    obtain ⟨a, b⟩ := p
    by_cases h2 : a = k
    · simp [get?, h2] at h; simp [h2, h]
    · simp [get?, h2] at h; exact List.mem_cons_of_mem _ (ih h)

theorem get?_del' (d : Dict K V) (k k' : K) :
    (d.del k).get? k' = if k = k' then none else d.get? k' := by
  induction d with
  | nil => simp [del]
  | cons p d ih =>
    obtain ⟨a, b⟩ := p
    by_cases h : a = k
    · subst h
      by_cases h2 : a = k'
      · subst h2
        simp only [del, if_true]
        simpa using ih
      · simp only [del, if_true, ih, if_neg h2]
        simp [get?, h2]
    · by_cases h2 : a = k'
      · subst h2
        have : ¬ k = a := fun e => h e.symm
        simp [del, get?, h, this]
      · simp [del, get?, h, h2, ih]

theorem get?_del (d : Dict K V) (_hn : d.keys.Nodup) (k k' : K) :
    (d.del k).get? k' = if k = k' then none else d.get? k' := get?_del' d k k'

theorem keys_del_sublist (d : Dict K V) (k : K) : (d.del k).keys.Sublist d.keys := by
  induction d with
  | nil => simp [del, keys]
  | cons p d ih =>
    obtain ⟨a, b⟩ := p
    by_cases h : a = k
    · have : (del ((a, b) :: d) k) = del d k := by simp [del, h]
      rw [this]
      exact ih.trans (by simp [keys])
    · simpa [del, keys, h] using ih

theorem nodup_keys_del (d : Dict K V) (k : K) (h : d.keys.Nodup) : (d.del k).keys.Nodup :=
  (keys_del_sublist d k).nodup h

theorem mem_keys_del (d : Dict K V) (hn : d.keys.Nodup) (k k' : K) :
    k' ∈ (d.del k).keys ↔ k' ≠ k ∧ k' ∈ d.keys := by
  simp only [mem_keys_iff, get?_del d hn]
  by_cases h : k = k'
  · simp [h]
  · have : k' ≠ k := fun e => h e.symm
    simp [h, this]

end Dict
