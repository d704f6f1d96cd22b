import Verif.Model.LowerDict

/-! Property C16: LowerDict is a map modulo letter case. -/

namespace LDict
variable {K V : Type} [DecidableEq K]

/-- The specification: what was most recently assigned under a key equal to `k` ignoring case, unless popped
since. The history is given most recent call first. -/
def latest (lower : K → K) : List (Op K V) → K → Option V
  | [], _ => none
  | .set k' v :: h, k => if lower k' = lower k then some v else latest lower h k
  | .pop k' :: h, k => if lower k' = lower k then none else latest lower h k
  | .look _ :: h, k => latest lower h k

/-- no two keys equal ignoring case -/
def Distinct (lower : K → K) (d : St K V) : Prop := (d.map fun p => lower p.1).Nodup

variable {lower : K → K}

theorem set_keys (d : St K V) (k : K) (v : V) (x : K) :
    x ∈ (set lower d k v).map (fun p => lower p.1) ↔ x ∈ d.map (fun p => lower p.1) ∨ x = lower k := by
  induction d with
  | nil => simp [set]
  | cons p r ih =>
    obtain ⟨k', v'⟩ := p
    simp only [set]
    split
    · rename_i e; simp only [List.map_cons, List.mem_cons]; rw [e]
      constructor
      · rintro (h | h)
        · exact Or.inr h
        · exact Or.inl (Or.inr h)
      · rintro ((h | h) | h)
        · exact Or.inl h
        · exact Or.inr h
        · exact Or.inl h
    · simp only [List.map_cons, List.mem_cons, ih, or_assoc]

theorem distinct_set {d : St K V} (h : Distinct lower d) (k : K) (v : V) : Distinct lower (set lower d k v) := by
  induction d with
  | nil => simp [set, Distinct]
  | cons p r ih =>
    obtain ⟨k', v'⟩ := p
    simp only [Distinct, List.map_cons, List.nodup_cons] at h
    simp only [set]
    split
    · simp only [Distinct, List.map_cons, List.nodup_cons]; exact h
    · rename_i hne
      simp only [Distinct, List.map_cons, List.nodup_cons]
      refine ⟨?_, ih h.2⟩
      rw [set_keys]
      rintro (h' | h')
      · exact h.1 h'
      · exact hne h'

theorem distinct_pop {d : St K V} (h : Distinct lower d) (k : K) : Distinct lower (pop lower d k).2 := by
  unfold Distinct pop at *
  simp only
  exact h.sublist (List.Sublist.map _ List.eraseP_sublist)

theorem getItem_set (d : St K V) (k : K) (v : V) (x : K) :
    getItem lower (set lower d k v) x = if lower k = lower x then some v else getItem lower d x := by
  induction d with
  | nil => by_cases e : lower k = lower x <;> simp [set, getItem, e]
  | cons p r ih =>
    obtain ⟨k', v'⟩ := p
    simp only [set]
    by_cases e1 : lower k' = lower k
    · rw [if_pos e1]
      by_cases e2 : lower k = lower x
      · simp [getItem, List.find?_cons, e1, e2]
      · simp [getItem, List.find?_cons, e1, e2]
    · rw [if_neg e1]
      by_cases e3 : lower k' = lower x
      · by_cases e2 : lower k = lower x
        · exact absurd (e3.trans e2.symm) e1
        · simp [getItem, List.find?_cons, e3, e2]
      · unfold getItem at ih ⊢
        simp only [List.find?_cons, e3, decide_false]
        exact ih

theorem getItem_none {d : St K V} {x : K} (h : lower x ∉ d.map fun p => lower p.1) : getItem lower d x = none := by
  unfold getItem
  rw [Option.map_eq_none_iff, List.find?_eq_none]
  intro p hp
  simp only [decide_eq_true_eq]
  intro e
  exact h (List.mem_map.mpr ⟨p, hp, e⟩)

theorem getItem_pop {d : St K V} (h : Distinct lower d) (k x : K) :
    getItem lower (pop lower d k).2 x = if lower k = lower x then none else getItem lower d x := by
  induction d with
  | nil => simp [pop, getItem]
  | cons p r ih =>
    obtain ⟨k', v'⟩ := p
    simp only [Distinct, List.map_cons, List.nodup_cons] at h
    simp only [pop] at ih ⊢
    by_cases e1 : lower k' = lower k
    · rw [List.eraseP_cons_of_pos (by simpa using e1)]
      by_cases e2 : lower k = lower x
      · rw [if_pos e2]
        exact getItem_none (by rw [← e2, ← e1]; exact h.1)
      · rw [if_neg e2]
        simp [getItem, List.find?_cons, e1, e2]
    · rw [List.eraseP_cons_of_neg (by simpa using e1)]
      by_cases e3 : lower k' = lower x
      · by_cases e2 : lower k = lower x
        · exact absurd (e3.trans e2.symm) e1
        · simp [getItem, List.find?_cons, e3, e2]
      · have := ih h.2
        unfold getItem at this ⊢
        simp only [List.find?_cons, e3, decide_false]
        exact this

/-- C16. After any sequence of assignments, pops and lookups starting from an empty LowerDict, for every key:
`d[k]` is the value most recently assigned under a key equal to k ignoring case (KeyError if there is none or
it has been popped since); `k in d` agrees with it; `pop(k)` returns it; `keys()` has no two keys equal
ignoring case, and contains a spelling of k iff k is in d. -/
theorem C16_lower_dict (lower : K → K) (ops : List (Op K V)) (k : K) :
    let d := ops.foldl (step lower) []
    getItem lower d k = latest lower ops.reverse k ∧
    contains lower d k = (latest lower ops.reverse k).isSome ∧
    (pop lower d k).1 = latest lower ops.reverse k ∧
    ((keys d).map lower).Nodup ∧
    (k ∈ d.map (·.1) → contains lower d k = true) ∧
    (lower k ∈ (keys d).map lower ↔ contains lower d k = true) := by
  intro d
  have main : ∀ ops : List (Op K V), Distinct lower (ops.reverse.foldr (fun op d => step lower d op) []) ∧
      ∀ k, getItem lower (ops.reverse.foldr (fun op d => step lower d op) []) k = latest lower ops.reverse k := by
    intro ops
    generalize ops.reverse = h
    induction h with
    | nil => exact ⟨by simp [Distinct], fun k => rfl⟩
    | cons op h ih =>
      rw [List.foldr_cons]
      cases op with
      | set k' v =>
        refine ⟨distinct_set ih.1 k' v, fun k => ?_⟩
        have := getItem_set (lower := lower) (h.foldr (fun op d => step lower d op) []) k' v k
        rw [ih.2] at this; exact this
      | pop k' =>
        refine ⟨distinct_pop ih.1 k', fun k => ?_⟩
        have := getItem_pop ih.1 k' k
        rw [ih.2] at this; exact this
      | look k' => exact ⟨ih.1, ih.2⟩
  have hd : d = ops.reverse.foldr (fun op d => step lower d op) [] := by
    rw [List.foldr_reverse]
  obtain ⟨h1, h2⟩ := main ops
  rw [← hd] at h1 h2
  have hcont : contains lower d k = (getItem lower d k).isSome := by
    unfold contains getItem
    rw [Option.isSome_map, Bool.eq_iff_iff, List.find?_isSome, List.any_eq_true]
  have hcm : contains lower d k = true ↔ lower k ∈ d.map (fun p => lower p.1) := by
    unfold contains
    rw [List.any_eq_true, List.mem_map]
    constructor
    · rintro ⟨p, hp, e⟩; exact ⟨p, hp, by simpa using e⟩
    · rintro ⟨p, hp, e⟩; exact ⟨p, hp, by simpa using e⟩
  have hkeys : keys d = d.map (·.1) := by
    have hnd : (d.map (·.1)).Nodup := by
      unfold Distinct at h1
      have : d.map (fun p => lower p.1) = (d.map (·.1)).map lower := by simp
      rw [this] at h1
      exact List.Pairwise.of_map lower (fun a b h e => h (by rw [e])) h1
    unfold keys
    have : ∀ (l acc : List K), (acc ++ l).Nodup →
        l.foldl (fun l k => if k ∈ l then l else l ++ [k]) acc = acc ++ l := by
      intro l
      induction l with
      | nil => intro acc _; simp
      | cons a l ih =>
        intro acc hn
        rw [List.foldl_cons, if_neg]
        · rw [ih (acc ++ [a]) (by simpa using hn)]; simp
        · intro ha
          rw [List.nodup_append] at hn
          exact hn.2.2 a ha a (by simp) rfl
    simpa using this (d.map (·.1)) [] (by simpa using hnd)
  have hkl : (keys d).map lower = d.map (fun p => lower p.1) := by rw [hkeys]; simp
  refine ⟨h2 k, by rw [hcont, h2], h2 k, by rw [hkl]; exact h1, ?_, by rw [hkl, hcm]⟩
  intro hk
  rw [hcm]
  obtain ⟨p, hp, e⟩ := List.mem_map.mp hk
  exact List.mem_map.mpr ⟨p, hp, by rw [e]⟩

/-- a history with overwriting under another spelling, and a pop -/
example : let d := [Op.set 'a' 1, .set 'B' 2, .set 'A' 3, .pop 'b', .look 'q', .set 'c' 4].foldl (step Char.toLower) []
    getItem Char.toLower d 'A' = some 3 ∧ keys d = ['a', 'c'] ∧ contains Char.toLower d 'B' = false := by
  decide +kernel

/-- Outside C16's statement: `d.get(k)` is inherited from dict and does not ignore case; it misses keys that
are in d. -/
theorem C16_get_fails : let d := set Char.toLower [] 'A' (1 : ℕ)
    contains Char.toLower d 'A' = true ∧ get Char.toLower d 'A' = none ∧ get Char.toLower d 'a' = some 1 := by
  decide +kernel

end LDict
