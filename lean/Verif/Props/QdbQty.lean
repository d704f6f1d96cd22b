import Verif.Model.QdbQty
import Mathlib.Tactic.Tauto

/-!
Quantities of a Qdb: canonical quantities (C209), LCIA methods (C210), synonyms of quantities (C211).
-/

set_option linter.unusedSimpArgs false
set_option linter.unusedSectionVars false

namespace Qdq

open Syn (Lex State getIndex newTerm mergeSet newItem)

variable {T : Type} [DecidableEq T] {L : Lex T} {o : PyOrd T}

/-! ### what is required -/

/-- every known term is of an item, entities are of items -/
structure Live (s : St T) : Prop where
  dict : ∀ k i, s.syn.dict.get? k = some i → ∃ l, s.syn.items[i]? = some (some l)
  ents : ∀ i q, s.ents.get? i = some q → i < s.syn.items.length

theorem live_empty : Live ({} : St T) where
  dict := by intro k i h; cases h
  ents := by intro i q h; cases h

/-! ### the synonym list -/

/-- one term: those known keep their index, a new one gets `i` -/
theorem newTerm_spec {s : State T} {t : T} {i : ℕ} {l : List T} (hi : s.items[i]? = some (some l)) (hb : t ≠ L.blank)
    (ht : s.dict.get? (L.san t) = none ∨ s.dict.get? (L.san t) = some i) :
    ∃ s', newTerm L t i s = .ok () s' ∧ s'.items.length = s.items.length ∧ (∃ l', s'.items[i]? = some (some l')) ∧
      (∀ j, j ≠ i → s'.items[j]? = s.items[j]?) ∧
      ∀ k, s'.dict.get? k = if k = L.san t then some i else s.dict.get? k := by
  have hlen : i < s.items.length := (List.getElem?_eq_some_iff.mp hi).1
  unfold newTerm
  rw [if_neg hb]
  simp only [hi]
  rcases ht with ht | ht
  · simp only [ht]
    split
    · refine ⟨_, rfl, by simp, ⟨_, by simp [hlen]; rfl⟩, ?_, ?_⟩
      · intro j hj; simp [List.getElem?_set_ne (Ne.symm hj)]
      · intro k; rw [Dict.get?_set]
        by_cases hk : k = L.san t
        · simp [hk]
        · simp [hk, Ne.symm hk]
    · refine ⟨_, rfl, by simp, ⟨_, by simp [hlen]; rfl⟩, ?_, ?_⟩
      · intro j hj; simp [List.getElem?_set_ne (Ne.symm hj)]
      · intro k; rw [Dict.get?_set]
        by_cases hk : k = L.san t
        · simp [hk]
        · simp [hk, Ne.symm hk]
  · simp only [ht, if_true]
    refine ⟨_, rfl, by simp, ⟨_, by simp [hlen]; rfl⟩, ?_, ?_⟩
    · intro j hj; simp [List.getElem?_set_ne (Ne.symm hj)]
    · intro k
      by_cases hk : k = L.san t
      · simp [hk, ht]
      · simp [hk]

theorem newTerm_blank (s : State T) (i : ℕ) : newTerm L L.blank i s = .ok () s := by simp [newTerm]

/-- terms that are unknown or of `i` -/
theorem mergeSet_spec (ts : List T) : ∀ {s : State T} {i : ℕ} {l : List T}, s.items[i]? = some (some l) →
    (∀ t ∈ ts, s.dict.get? (L.san t) = none ∨ s.dict.get? (L.san t) = some i) →
    ∃ s', mergeSet (newTerm L) ts i s = .ok () s' ∧ s'.items.length = s.items.length ∧ (∃ l', s'.items[i]? = some (some l')) ∧
      (∀ j, j ≠ i → s'.items[j]? = s.items[j]?) ∧
      (∀ k j, s.dict.get? k = some j → s'.dict.get? k = some j) ∧
      (∀ t ∈ ts, t ≠ L.blank → s'.dict.get? (L.san t) = some i) ∧
      (∀ k j, s'.dict.get? k = some j → s.dict.get? k = some j ∨ j = i) := by
  induction ts with
  | nil => intro s i l hi _; exact ⟨s, rfl, rfl, ⟨l, hi⟩, fun _ _ => rfl, fun _ _ h => h, by simp, fun _ _ h => .inl h⟩
  | cons t ts ih =>
    intro s i l hi ht
    by_cases hb : t = L.blank
    · subst hb
      obtain ⟨s', h1, h2, h3, h4, h5, h6, h7⟩ := ih hi (fun t h => ht t (List.mem_cons_of_mem _ h))
      refine ⟨s', ?_, h2, h3, h4, h5, ?_, h7⟩
      · simp [mergeSet, newTerm_blank, Out.bind, h1]
      · intro t' ht' hb'
        rcases List.mem_cons.mp ht' with rfl | ht'
        · exact absurd rfl hb'
        · exact h6 t' ht' hb'
    · obtain ⟨s1, a1, a2, ⟨l1, a3⟩, a4, a5⟩ := newTerm_spec (L := L) hi hb (ht t List.mem_cons_self)
      obtain ⟨s', h1, h2, h3, h4, h5, h6, h7⟩ := ih a3 (by
        intro t' ht'
        rw [a5]
        split
        · exact .inr rfl
        · exact ht t' (List.mem_cons_of_mem _ ht'))
      refine ⟨s', by simp [mergeSet, a1, Out.bind, h1], h2.trans a2, h3, fun j hj => (h4 j hj).trans (a4 j hj), ?_, ?_, ?_⟩
      · intro k j hk
        apply h5
        rw [a5]
        split
        · rename_i hkt; subst hkt
          rcases ht t List.mem_cons_self with h | h
          · rw [h] at hk; cases hk
          · rw [h] at hk; exact hk
        · exact hk
      · intro t' ht' hb'
        rcases List.mem_cons.mp ht' with rfl | ht'
        · apply h5; rw [a5]; simp
        · exact h6 t' ht' hb'
      · intro k j hk
        rcases h7 k j hk with h | h
        · rw [a5] at h
          split at h
          · exact .inr (Option.some.inj h).symm
          · exact .inl h
        · exact .inr h

/-- nothing changes if only blank terms are left -/
theorem mergeSet_blanks (ts : List T) (h : ∀ t ∈ ts, t = L.blank) (i : ℕ) (s : State T) :
    mergeSet (newTerm L) ts i s = .ok () s := by
  induction ts with
  | nil => rfl
  | cons t ts ih =>
    have : t = L.blank := h t List.mem_cons_self
    subst this
    simp [mergeSet, newTerm_blank, Out.bind, ih (fun t ht => h t (List.mem_cons_of_mem _ ht))]

/-- what one call of `add_set` does that returns `r` -/
structure Step (L : Lex T) (it : List T) (s : State T) (r : Option ℕ) (s' : State T) : Prop where
  kept : ∀ k j, s.dict.get? k = some j → s'.dict.get? k = some j
  new : ∀ t ∈ it, t ≠ L.blank → s.dict.get? (L.san t) = none → r.isSome ∧ s'.dict.get? (L.san t) = r
  only : ∀ k j, s'.dict.get? k = some j → s.dict.get? k = some j ∨ some j = r
  items : ∀ j, j < s.items.length → (∃ l, s.items[j]? = some (some l)) → ∃ l, s'.items[j]? = some (some l)
  length : s.items.length ≤ s'.items.length
  index : ∀ i, r = some i → ∃ l, s'.items[i]? = some (some l)

theorem unmatched_mem (s : State T) (it : List T) (t : T) :
    t ∈ o.f (PySet.ofList (it.filter fun t => (getIndex L s t).isNone)) ↔ t ∈ it ∧ s.dict.get? (L.san t) = none := by
  rw [o.mem, PySet.mem_ofList, List.mem_filter]
  simp [getIndex]

/-- the terms that are not found are put into a new item, if there are any -/
theorem newSet_spec (s : State T) (it um : List T) (hum : ∀ t, t ∈ um ↔ t ∈ it ∧ s.dict.get? (L.san t) = none) :
    (um = [] ∧ Syn.newSet L (mergeSet (newTerm L)) um s = .ok none s ∧ Step L it s none s) ∨
    (um ≠ [] ∧ ∃ s', Syn.newSet L (mergeSet (newTerm L)) um s = .ok (some s.items.length) s' ∧
      Step L it s (some s.items.length) s' ∧ s'.items.length = s.items.length + 1) := by
  have hf : um.filter (fun t => (getIndex L s t).isNone) = um := by
    rw [List.filter_eq_self]
    intro t ht
    simp [getIndex, ((hum t).mp ht).2]
  by_cases he : um = []
  · left
    refine ⟨he, by simp [Syn.newSet, he], ⟨fun _ _ h => h, ?_, fun _ _ h => .inl h, fun _ _ h => h, (Nat.le_refl _), by simp⟩⟩
    intro t ht _ hn
    have := (hum t).mpr ⟨ht, hn⟩
    rw [he] at this; cases this
  · right
    refine ⟨he, ?_⟩
    have hi : (newItem s).2.items[s.items.length]? = some (some []) := by simp [newItem]
    obtain ⟨s', h1, h2, h3, h4, h5, h6, h7⟩ := mergeSet_spec (L := L) um (s := (newItem s).2) hi (by
      intro t ht; left; exact ((hum t).mp ht).2)
    refine ⟨s', ?_, ⟨h5, ?_, ?_, ?_, ?_, ?_⟩, ?_⟩
    · unfold Syn.newSet
      simp only [hf, if_neg he]
      have : newItem s = (s.items.length, (newItem s).2) := rfl
      rw [this]
      simp [h1, Out.bind]
    · intro t ht hb hn
      exact ⟨rfl, h6 t ((hum t).mpr ⟨ht, hn⟩) hb⟩
    · intro k j hk
      rcases h7 k j hk with h | h
      · exact .inl h
      · exact .inr (by rw [h])
    · intro j hj hl
      rw [h4 j (by omega)]
      simpa [newItem, List.getElem?_append_left hj] using hl
    · rw [h2]; simp [newItem]
    · intro i hi'; cases hi'; exact h3
    · rw [h2]; simp [newItem]

/-- the indices of the terms that are found -/
def foundIn (L : Lex T) (s : State T) (it : List T) (i : ℕ) : Prop := ∃ t ∈ it, s.dict.get? (L.san t) = some i

theorem found_mem (s : State T) (it : List T) (i : ℕ) :
    i ∈ PySet.ofList (it.filterMap (getIndex L s)) ↔ foundIn L s it i := by
  rw [PySet.mem_ofList, List.mem_filterMap]; rfl

/-- without merging: a new item for the terms not found -/
theorem addSet_apart (s : State T) (it : List T) :
    ((∀ t ∈ it, s.dict.get? (L.san t) ≠ none) ∧ addSet L o it false s = .ok (none, s)) ∨
    ((∃ t ∈ it, s.dict.get? (L.san t) = none) ∧
      ∃ s', addSet L o it false s = .ok (some s.items.length, s') ∧ Step L it s (some s.items.length) s' ∧
        s'.items.length = s.items.length + 1) := by
  have hum := unmatched_mem (L := L) (o := o) s it
  have hadd : Syn.addSet L o (mergeSet (newTerm L)) it false s =
      Syn.newSet L (mergeSet (newTerm L)) (o.f (PySet.ofList (it.filter fun t => (getIndex L s t).isNone))) s := by
    unfold Syn.addSet
    simp only
    split <;> first | rfl | (rename_i h; cases h)
  rcases newSet_spec s it _ hum with ⟨h1, h2, -⟩ | ⟨h1, s', h2, h3, h4⟩
  · left
    refine ⟨?_, by simp [addSet, hadd, h2]⟩
    intro t ht hn
    have := (hum t).mpr ⟨ht, hn⟩
    rw [h1] at this; cases this
  · right
    refine ⟨?_, s', by simp [addSet, hadd, h2], h3, h4⟩
    obtain ⟨t, ht⟩ := List.exists_mem_of_ne_nil _ h1
    exact ⟨t, (hum t).mp ht⟩

/-- with merging: the item of those found, a new one if none is, and an exception if they are of several -/
theorem addSet_merge (s : St T) (hs : Live s) (it : List T) (hne : it ≠ []) :
    ((∃ i j, i ≠ j ∧ foundIn L s.syn it i ∧ foundIn L s.syn it j) ∧ addSet L o it true s.syn = .error .inconsistent) ∨
    ((∃ i, ∀ j, foundIn L s.syn it j ↔ j = i) ∧
      ∃ i s', foundIn L s.syn it i ∧ addSet L o it true s.syn = .ok (some i, s') ∧ Step L it s.syn (some i) s' ∧
        s'.items.length = s.syn.items.length) ∨
    ((∀ j, ¬ foundIn L s.syn it j) ∧
      ∃ s', addSet L o it true s.syn = .ok (some s.syn.items.length, s') ∧ Step L it s.syn (some s.syn.items.length) s' ∧
        s'.items.length = s.syn.items.length + 1) := by
  have hum := unmatched_mem (L := L) (o := o) s.syn it
  have hfd := found_mem (L := L) s.syn it
  have hnd := PySet.nodup_ofList (it.filterMap (getIndex L s.syn))
  unfold addSet Syn.addSet
  simp only
  cases hf : PySet.ofList (it.filterMap (getIndex L s.syn)) with
  | nil =>
    right; right
    rw [hf] at hfd
    refine ⟨fun j hj => by simpa using (hfd j).mpr hj, ?_⟩
    rcases newSet_spec s.syn it _ hum with ⟨h1, -⟩ | ⟨-, s', h2, h3, h4⟩
    · exfalso
      obtain ⟨t, ht⟩ := List.exists_mem_of_ne_nil _ hne
      cases hg : s.syn.dict.get? (L.san t) with
      | none => have := (hum t).mpr ⟨ht, hg⟩; rw [h1] at this; cases this
      | some i => have := (hfd i).mpr ⟨t, ht, hg⟩; cases this
    · exact ⟨s', by simp [h2], h3, h4⟩
  | cons i l =>
    rw [hf] at hfd hnd
    cases l with
    | nil =>
      right; left
      have hi : foundIn L s.syn it i := (hfd i).mp (by simp)
      refine ⟨⟨i, fun j => by rw [← hfd]; simp⟩, i, ?_⟩
      obtain ⟨t, ht, hg⟩ := hi
      obtain ⟨l, hl⟩ := hs.dict _ _ hg
      obtain ⟨s', h1, h2, h3, h4, h5, h6, h7⟩ := mergeSet_spec (L := L)
        (o.f (PySet.ofList (it.filter fun t => (getIndex L s.syn t).isNone))) hl (by
          intro t ht; left; exact ((hum t).mp ht).2)
      refine ⟨s', ⟨t, ht, hg⟩, by simp [h1, Out.bind], ⟨h5, ?_, ?_, ?_, ?_, ?_⟩, h2⟩
      · intro t ht hb hn
        exact ⟨rfl, h6 t ((hum t).mpr ⟨ht, hn⟩) hb⟩
      · intro k j hk
        rcases h7 k j hk with h | h
        · exact .inl h
        · exact .inr (by rw [h])
      · intro j hj hl
        by_cases hji : j = i
        · subst hji; exact h3
        · rw [h4 j hji]; exact hl
      · exact Nat.le_of_eq h2.symm
      · intro i' hi'; cases hi'; exact h3
    | cons j l =>
      left
      refine ⟨⟨i, j, ?_, (hfd i).mp (by simp), (hfd j).mp (by simp)⟩, by simp⟩
      rw [List.nodup_cons] at hnd
      intro h; exact hnd.1 (by simp [h])

/-! ### registering -/

theorem settle_syn (q : Qty T) (i : ℕ) (s : St T) : (settle q i s).syn = s.syn := by unfold settle; split <;> rfl

theorem settle_ents (q : Qty T) (i : ℕ) (s : St T) (j : ℕ) :
    (settle q i s).ents.get? j = if j = i ∧ s.ents.get? i = none then some q else s.ents.get? j := by
  unfold settle
  cases h : s.ents.get? i with
  | none =>
    have : ¬ s.ents.has i = true := by rw [Dict.has_iff, Dict.mem_keys_iff, h]; simp
    rw [if_neg this]
    simp only [Dict.get?_set, and_true]
    by_cases hj : j = i
    · simp [hj]
    · simp [hj, Ne.symm hj]
  | some x =>
    have : s.ents.has i = true := by rw [Dict.has_iff, Dict.mem_keys_iff, h]; simp
    rw [if_pos this]; simp

theorem live_step {s : St T} (hs : Live s) {it : List T} {r : Option ℕ} {syn : State T} (h : Step L it s.syn r syn) :
    Live { s with syn := syn } := by
  refine ⟨?_, fun i q hq => Nat.lt_of_lt_of_le (hs.ents i q hq) h.length⟩
  intro k i hk
  rcases h.only k i hk with hk | hk
  · obtain ⟨l, hl⟩ := hs.dict k i hk
    exact h.items i (List.getElem?_eq_some_iff.mp hl).1 ⟨l, hl⟩
  · exact h.index i hk.symm

theorem live_settle {s : St T} (hs : Live s) (q : Qty T) (i : ℕ) (hi : i < s.syn.items.length) : Live (settle q i s) := by
  refine ⟨by rw [settle_syn]; exact hs.dict, ?_⟩
  intro j x hj
  rw [settle_syn]
  rw [settle_ents] at hj
  split at hj
  · rename_i h; rw [h.1]; exact hi
  · exact hs.ents j x hj

/-- what registering does: a step of the synonym list, and an entity where there was none -/
theorem register_cases {s s' : St T} (hs : Live s) {q : Qty T} {i : ℕ} (h : register L o q s = .ok (i, s')) :
    ∃ syn, s' = settle q i { s with syn := syn } ∧ i < syn.items.length ∧
      ((Step L q.terms s.syn (some i) syn ∧ addSet L o q.terms (!q.method) s.syn = .ok (some i, syn)) ∨
       (q.method = true ∧ syn = s.syn ∧ (∀ t ∈ q.terms, s.syn.dict.get? (L.san t) ≠ none) ∧
          s.syn.dict.get? (L.san q.uuid) = some i)) := by
  have hlt : ∀ {it : List T} {syn : State T} {i : ℕ}, Step L it s.syn (some i) syn → i < syn.items.length := by
    intro it syn i hst
    obtain ⟨l, hl⟩ := hst.index i rfl
    exact (List.getElem?_eq_some_iff.mp hl).1
  unfold register at h
  cases hm : q.method with
  | false =>
    simp only [hm, Bool.not_false] at h
    rcases addSet_merge (L := L) (o := o) s hs q.terms (by simp [Qty.terms]) with ⟨-, he⟩ | ⟨-, k, syn, -, he, hst, -⟩ | ⟨-, syn, he, hst, -⟩
    · simp [he] at h
    · simp only [he] at h
      cases h
      exact ⟨syn, rfl, hlt hst, .inl ⟨hst, by simpa using he⟩⟩
    · simp only [he] at h
      cases h
      exact ⟨syn, rfl, hlt hst, .inl ⟨hst, by simpa using he⟩⟩
  | true =>
    simp only [hm, Bool.not_true] at h
    rcases addSet_apart (L := L) (o := o) s.syn q.terms with ⟨hk, he⟩ | ⟨hk, syn, he, hst, -⟩
    · simp only [he] at h
      split at h
      · cases h
      · rename_i j hj
        cases h
        obtain ⟨l, hl⟩ := hs.dict _ _ hj
        exact ⟨s.syn, rfl, (List.getElem?_eq_some_iff.mp hl).1, .inr ⟨rfl, rfl, hk, hj⟩⟩
    · simp only [he] at h
      cases h
      exact ⟨syn, rfl, hlt hst, .inl ⟨hst, by simpa using he⟩⟩

/-- C209: registering keeps what is required. -/
theorem register_live {s s' : St T} (hs : Live s) {q : Qty T} {i : ℕ} (h : register L o q s = .ok (i, s')) : Live s' := by
  obtain ⟨syn, rfl, hi, hc⟩ := register_cases hs h
  apply live_settle _ _ _ hi
  rcases hc with ⟨hst, -⟩ | ⟨-, rfl, -, -⟩
  · exact live_step hs hst
  · exact hs

/-- C209: what a term stands for never changes: the canonical quantity of a term remains, whatever is registered. -/
theorem canonical_stable {s s' : St T} (hs : Live s) {q : Qty T} {i : ℕ} (h : register L o q s = .ok (i, s')) {t : T}
    {e : Qty T} (he : canonical L s t = some e) : canonical L s' t = some e := by
  obtain ⟨syn, rfl, -, hc⟩ := register_cases hs h
  unfold canonical at he ⊢
  rw [settle_syn]
  cases hg : getIndex L s.syn t with
  | none => rw [hg] at he; cases he
  | some j =>
    rw [hg] at he
    have hkeep : getIndex L syn t = some j := by
      rcases hc with ⟨hst, -⟩ | ⟨-, rfl, -, -⟩
      · exact hst.kept _ _ hg
      · exact hg
    simp only [hkeep]
    rw [settle_ents]
    simp only at he ⊢
    split
    · rename_i h2; rw [h2.1, h2.2] at he; cases he
    · exact he

/-- C209: over any history of registrations. -/
theorem canonical_history (l : List (Qty T)) : ∀ {s s' : St T} {is : List ℕ}, Live s → registerAll L o l s = .ok (is, s') →
    Live s' ∧ ∀ t e, canonical L s t = some e → canonical L s' t = some e := by
  induction l with
  | nil => intro s s' is hs h; cases h; exact ⟨hs, fun _ _ h => h⟩
  | cons q l ih =>
    intro s s' is hs h
    unfold registerAll at h
    split at h
    · cases h
    · rename_i i s1 h1
      split at h
      · cases h
      · rename_i is2 s2 h2
        cases h
        obtain ⟨a, b⟩ := ih (register_live hs h1) h2
        exact ⟨a, fun t e he => b t e (canonical_stable hs h1 he)⟩

/-- C209: a flow property is refused exactly if its terms are known for two different quantities. -/
theorem property_refused {s : St T} (hs : Live s) {q : Qty T} (hq : q.method = false) :
    (∃ e, register L o q s = .error e) ↔
      ∃ t ∈ q.terms, ∃ t' ∈ q.terms, ∃ i j, getIndex L s.syn t = some i ∧ getIndex L s.syn t' = some j ∧ i ≠ j := by
  unfold register
  simp only [hq, Bool.not_false]
  rcases addSet_merge (L := L) (o := o) s hs q.terms (by simp [Qty.terms]) with
    ⟨⟨i, j, hij, ⟨t, ht, hi⟩, t', ht', hj⟩, he⟩ | ⟨⟨i, hi⟩, k, syn, -, he, hst, -⟩ | ⟨hn, syn, he, hst, -⟩
  · simp only [he]
    exact ⟨fun _ => ⟨t, ht, t', ht', i, j, hi, hj, hij⟩, fun _ => ⟨_, rfl⟩⟩
  · simp only [he]
    constructor
    · rintro ⟨e, h⟩; cases h
    · rintro ⟨t, ht, t', ht', a, b, ha, hb, hab⟩
      exact absurd (((hi a).mp ⟨t, ht, ha⟩).trans ((hi b).mp ⟨t', ht', hb⟩).symm) hab
  · simp only [he]
    constructor
    · rintro ⟨e, h⟩; cases h
    · rintro ⟨t, ht, t', ht', a, b, ha, hb, hab⟩
      exact absurd ⟨t, ht, ha⟩ (hn a)

/-- C209: registering a flow property brings all its terms together: they all have the index returned, which is that of the ones
known before if there are any; the canonical quantity is then that one, else the new one. -/
theorem property_merged {s s' : St T} (hs : Live s) {q : Qty T} (hq : q.method = false) {i : ℕ}
    (h : register L o q s = .ok (i, s')) :
    (∀ t ∈ q.terms, t ≠ L.blank → getIndex L s'.syn t = some i) ∧
    (∀ t ∈ q.terms, ∀ j, getIndex L s.syn t = some j → j = i) ∧
    (∀ t ∈ q.terms, ∀ e, canonical L s t = some e → s'.ents.get? i = some e) ∧
    ((∀ t ∈ q.terms, getIndex L s.syn t = none) → s'.ents.get? i = some q) := by
  unfold register at h
  simp only [hq, Bool.not_false] at h
  have hent : ∀ (syn : State T), s' = settle q i { s with syn := syn } →
      (∀ t ∈ q.terms, ∀ j, getIndex L s.syn t = some j → j = i) →
      ∀ t ∈ q.terms, ∀ e, canonical L s t = some e → s'.ents.get? i = some e := by
    rintro syn rfl hall t ht e he
    unfold canonical at he
    cases hg : getIndex L s.syn t with
    | none => rw [hg] at he; cases he
    | some j =>
      have := hall t ht j hg
      subst this
      rw [hg] at he
      simp only at he
      rw [settle_ents]; simp [he]
  rcases addSet_merge (L := L) (o := o) s hs q.terms (by simp [Qty.terms]) with
    ⟨-, he⟩ | ⟨⟨k, hk⟩, k', syn, hf, he, hst, -⟩ | ⟨hn, syn, he, hst, -⟩
  · simp [he] at h
  · simp only [he] at h
    cases h
    have := (hk _).mp hf
    subst this
    have hall : ∀ t ∈ q.terms, ∀ j, getIndex L s.syn t = some j → j = i := fun t ht j hj => (hk j).mp ⟨t, ht, hj⟩
    refine ⟨?_, hall, hent _ rfl hall, ?_⟩
    · intro t ht hb
      rw [settle_syn]
      cases hg : s.syn.dict.get? (L.san t) with
      | none => exact (hst.new t ht hb hg).2
      | some j => have := hall t ht j hg; subst this; exact hst.kept _ _ hg
    · intro hnone
      obtain ⟨t, ht, hg⟩ := hf
      rw [show s.syn.dict.get? (L.san t) = none from hnone t ht] at hg; cases hg
  · simp only [he] at h
    cases h
    have hall : ∀ t ∈ q.terms, ∀ j, getIndex L s.syn t = some j → j = s.syn.items.length :=
      fun t ht j hj => absurd ⟨t, ht, hj⟩ (hn j)
    refine ⟨?_, hall, hent _ rfl hall, ?_⟩
    · intro t ht hb
      rw [settle_syn]
      cases hg : s.syn.dict.get? (L.san t) with
      | none => exact (hst.new t ht hb hg).2
      | some j => exact absurd ⟨t, ht, hg⟩ (hn j)
    · intro _
      rw [settle_ents]
      have : s.ents.get? s.syn.items.length = none := by
        cases hx : s.ents.get? s.syn.items.length with
        | none => rfl
        | some x => exact absurd (hs.ents _ _ hx) (Nat.lt_irrefl _)
      simp [this]

/-- C209: registering a flow property again gives the same index. -/
theorem property_again {s s' : St T} (hs : Live s) {q : Qty T} (hq : q.method = false) (hb : ∃ t ∈ q.terms, t ≠ L.blank) {i : ℕ}
    (h : register L o q s = .ok (i, s')) : ∃ s2, register L o q s' = .ok (i, s2) := by
  obtain ⟨h1, -⟩ := property_merged hs hq h
  have hl := register_live hs h
  cases hr : register L o q s' with
  | ok x =>
    obtain ⟨j, s2⟩ := x
    obtain ⟨t, ht, htb⟩ := hb
    have := (property_merged hl hq hr).2.1 t ht i (h1 t ht htb)
    subst this; exact ⟨s2, rfl⟩
  | error e =>
    exfalso
    obtain ⟨t, ht, t', ht', a, b, ha, hb', hab⟩ := (property_refused (L := L) (o := o) hl hq).mp ⟨e, hr⟩
    obtain ⟨syn, rfl, -, hc⟩ := register_cases hs h
    rw [settle_syn] at ha hb'
    have key : ∀ t ∈ q.terms, ∀ a, getIndex L syn t = some a → a = i := by
      intro t ht a ha
      rcases hc with ⟨hst, -⟩ | ⟨hm, -⟩
      · rcases hst.only _ _ ha with ha | ha
        · exact (property_merged hs hq h).2.1 t ht a ha
        · exact Option.some.inj ha
      · rw [hq] at hm; cases hm
    exact hab ((key t ht a ha).trans (key t' ht' b hb').symm)

/-! ### LCIA methods (C210) -/

/-- C210: an LCIA method whose uuid is not known gets an item of its own, whatever else of it is known; it is the canonical quantity
of its uuid, and registering it again gives the same. -/
theorem method_new {s : St T} (hs : Live s) {q : Qty T} (hq : q.method = true) (hb : ∀ t ∈ q.terms, t ≠ L.blank)
    (hu : getIndex L s.syn q.uuid = none) :
    ∃ i s', register L o q s = .ok (i, s') ∧ (∀ t j, getIndex L s.syn t = some j → j ≠ i) ∧ canonical L s' q.uuid = some q ∧
      register L o q s' = .ok (i, s') := by
  have hmem : q.uuid ∈ q.terms := by simp [Qty.terms]
  rcases addSet_apart (L := L) (o := o) s.syn q.terms with ⟨hk, -⟩ | ⟨-, syn, he, hst, hlen⟩
  · exact absurd hu (hk _ hmem)
  · have hreg : register L o q s = .ok (s.syn.items.length, settle q s.syn.items.length { s with syn := syn }) := by
      unfold register
      simp [hq, he]
    have hnone : s.ents.get? s.syn.items.length = none := by
      cases hx : s.ents.get? s.syn.items.length with
      | none => rfl
      | some x => exact absurd (hs.ents _ _ hx) (Nat.lt_irrefl _)
    have huuid : getIndex L syn q.uuid = some s.syn.items.length := (hst.new _ hmem (hb _ hmem) hu).2
    refine ⟨_, _, hreg, ?_, ?_, ?_⟩
    · intro t j hj hji
      obtain ⟨l, hl⟩ := hs.dict _ _ hj
      have := (List.getElem?_eq_some_iff.mp hl).1
      omega
    · unfold canonical
      rw [settle_syn]
      simp only [huuid]
      rw [settle_ents]; simp [hnone]
    · have hall : ∀ t ∈ q.terms, syn.dict.get? (L.san t) ≠ none := by
        intro t ht
        cases hg : s.syn.dict.get? (L.san t) with
        | none => rw [(hst.new t ht (hb t ht) hg).2]; simp
        | some j => rw [hst.kept _ _ hg]; simp
      rcases addSet_apart (L := L) (o := o) syn q.terms with ⟨-, he2⟩ | ⟨⟨t, ht, hn⟩, -⟩
      · unfold register
        rw [settle_syn]
        simp only [hq, Bool.not_true, he2, huuid]
        congr 2
        unfold settle
        simp only [hnone]
        have h1 : ¬ s.ents.has s.syn.items.length = true := by rw [Dict.has_iff, Dict.mem_keys_iff, hnone]; simp
        simp only [if_neg h1]
        have h2 : (s.ents.set s.syn.items.length q).has s.syn.items.length = true := by
          rw [Dict.has_iff, Dict.mem_keys_iff, Dict.get?_set_self]; simp
        simp [h2]
      · exact absurd hn (hall t ht)

/-- C210: a method whose uuid is known but one of whose other terms is not (the same method from another origin) gets a new index
when it is first asked for, and the old one ever after: what is stored first, under the new one, is not found again. -/
theorem method_split {s : St T} (hs : Live s) {q : Qty T} (hq : q.method = true) (hb : ∀ t ∈ q.terms, t ≠ L.blank) {j : ℕ}
    (hu : getIndex L s.syn q.uuid = some j) {t : T} (ht : t ∈ q.terms) (hn : getIndex L s.syn t = none) :
    ∃ i s', register L o q s = .ok (i, s') ∧ i ≠ j ∧ ∃ s2, register L o q s' = .ok (j, s2) := by
  rcases addSet_apart (L := L) (o := o) s.syn q.terms with ⟨hk, -⟩ | ⟨-, syn, he, hst, hlen⟩
  · exact absurd hn (hk _ ht)
  · have hreg : register L o q s = .ok (s.syn.items.length, settle q s.syn.items.length { s with syn := syn }) := by
      unfold register
      simp [hq, he]
    refine ⟨_, _, hreg, ?_, ?_⟩
    · obtain ⟨l, hl⟩ := hs.dict _ _ hu
      have := (List.getElem?_eq_some_iff.mp hl).1
      omega
    · have hall : ∀ t ∈ q.terms, syn.dict.get? (L.san t) ≠ none := by
        intro t ht
        cases hg : s.syn.dict.get? (L.san t) with
        | none => rw [(hst.new t ht (hb t ht) hg).2]; simp
        | some j => rw [hst.kept _ _ hg]; simp
      rcases addSet_apart (L := L) (o := o) syn q.terms with ⟨-, he2⟩ | ⟨⟨t, ht, hn⟩, -⟩
      · have huuid : getIndex L syn q.uuid = some j := hst.kept _ _ hu
        unfold register
        rw [settle_syn]
        simp only [hq, Bool.not_true, he2, huuid]
        exact ⟨_, rfl⟩
      · exact absurd hn (hall t ht)

/-- C210: a method with an empty term (an empty list of synonyms given as a text) gets a new index whenever it is asked for. -/
theorem method_blank {s : St T} (hs : Live s) {q : Qty T} (hq : q.method = true) (hb : L.blank ∈ q.terms)
    (hn : ∀ t ∈ q.terms, L.san t = L.san L.blank → t = L.blank) (hu : getIndex L s.syn L.blank = none) :
    ∃ i s', register L o q s = .ok (i, s') ∧ (∀ t j, getIndex L s.syn t = some j → j ≠ i) ∧ i = s.syn.items.length ∧
      s'.syn.items.length = s.syn.items.length + 1 ∧ getIndex L s'.syn L.blank = none ∧ Live s' := by
  rcases addSet_apart (L := L) (o := o) s.syn q.terms with ⟨hk, -⟩ | ⟨-, syn, he, hst, hlen⟩
  · exact absurd hu (hk _ hb)
  · have hreg : register L o q s = .ok (s.syn.items.length, settle q s.syn.items.length { s with syn := syn }) := by
      unfold register
      simp [hq, he]
    refine ⟨_, _, hreg, ?_, rfl, by rw [settle_syn]; exact hlen, ?_, register_live hs hreg⟩
    · intro t j hj hji
      obtain ⟨l, hl⟩ := hs.dict _ _ hj
      have := (List.getElem?_eq_some_iff.mp hl).1
      omega
    · rw [settle_syn]
      -- the blank term is never put into the dictionary
      have hum := unmatched_mem (L := L) (o := o) s.syn q.terms
      unfold addSet at he
      have hadd : Syn.addSet L o (mergeSet (newTerm L)) q.terms false s.syn =
          Syn.newSet L (mergeSet (newTerm L)) (o.f (PySet.ofList (q.terms.filter fun t => (getIndex L s.syn t).isNone))) s.syn := by
        unfold Syn.addSet
        simp only
        split <;> first | rfl | (rename_i h; cases h)
      have gen : ∀ (ts : List T) (i : ℕ) (s s' : State T), (∀ t ∈ ts, L.san t = L.san L.blank → t = L.blank) →
          mergeSet (newTerm L) ts i s = .ok () s' → s.dict.get? (L.san L.blank) = none → s'.dict.get? (L.san L.blank) = none := by
        intro ts
        induction ts with
        | nil => intro i s s' _ h h0; cases h; exact h0
        | cons t ts ih =>
          intro i s s' hts h h0
          unfold mergeSet at h
          cases hnt : newTerm L t i s with
          | err e s1 => rw [hnt] at h; cases h
          | ok u s1 =>
            rw [hnt] at h
            refine ih i s1 s' (fun t ht => hts t (List.mem_cons_of_mem _ ht)) h ?_
            by_cases htb : t = L.blank
            · subst htb; rw [newTerm_blank] at hnt; cases hnt; exact h0
            · have hne : L.san t ≠ L.san L.blank := fun hh => htb (hts t List.mem_cons_self hh)
              unfold newTerm at hnt
              rw [if_neg htb] at hnt
              simp only at hnt
              split at hnt
              · cases hnt
              · cases hnt
              · split at hnt
                · split at hnt
                  · cases hnt; exact h0
                  · cases hnt
                · split at hnt <;>
                  · cases hnt
                    simp only
                    rw [Dict.get?_set_ne _ _ hne]; exact h0
      rw [hadd] at he
      cases hr : Syn.newSet L (mergeSet (newTerm L))
          (o.f (PySet.ofList (q.terms.filter fun t => (getIndex L s.syn t).isNone))) s.syn with
      | err e s1 => rw [hr] at he; cases he
      | ok r s1 =>
        rw [hr] at he
        cases he
        unfold Syn.newSet at hr
        simp only at hr
        split at hr
        · cases hr
        · have hitem : newItem s.syn = (s.syn.items.length, (newItem s.syn).2) := rfl
          rw [hitem] at hr
          simp only at hr
          cases hms : mergeSet (newTerm L) ((o.f (PySet.ofList (q.terms.filter fun t => (getIndex L s.syn t).isNone))).filter
              fun t => (getIndex L s.syn t).isNone) s.syn.items.length (newItem s.syn).2 with
          | err e s2 => rw [hms] at hr; cases hr
          | ok u s2 =>
            rw [hms] at hr
            simp only [Out.bind, Out.ok.injEq] at hr
            obtain ⟨-, rfl⟩ := hr
            refine gen _ _ _ _ ?_ hms hu
            intro t ht
            exact hn t ((hum t).mp (List.mem_filter.mp ht).1).1

/-! ### synonyms (C211) -/

/-- C211: adding synonyms raises and changes nothing, or all of them stand for what the main term stands for, and everything known
stands for what it did. -/
theorem synonyms_ok {s s' : St T} (hs : Live s) {main : T} {terms : List T} (h : addSynonyms L o main terms s = .ok s') :
    Live s' ∧ (∀ t ∈ terms, t ≠ L.blank → canonical L s' t = canonical L s main) ∧
    ∀ t e, canonical L s t = some e → canonical L s' t = some e := by
  unfold addSynonyms at h
  split at h
  · cases h
  · rename_i m hm
    split at h
    · cases h
    · rename_i r syn he
      cases h
      rcases addSet_merge (L := L) (o := o) s hs (main :: terms) (by simp) with
        ⟨-, he'⟩ | ⟨⟨k, hk⟩, k', syn', hf, he', hst, -⟩ | ⟨hn, -⟩
      · rw [he'] at he; cases he
      · rw [he'] at he; cases he
        have h1 := (hk _).mp hf
        subst h1
        have h2 := (hk m).mp ⟨main, by simp, hm⟩
        subst h2
        refine ⟨live_step hs hst, ?_, ?_⟩
        · intro t ht hb
          have : getIndex L syn t = some m := by
            cases hg : s.syn.dict.get? (L.san t) with
            | none => exact (hst.new t (List.mem_cons_of_mem _ ht) hb hg).2
            | some j =>
              have := (hk j).mp ⟨t, List.mem_cons_of_mem _ ht, hg⟩
              subst this; exact hst.kept _ _ hg
          simp [canonical, this, hm]
        · intro t e hte
          unfold canonical at hte ⊢
          cases hg : getIndex L s.syn t with
          | none => rw [hg] at hte; cases hte
          | some j =>
            rw [hg] at hte
            simp only
            rw [show getIndex L syn t = some j from hst.kept _ _ hg]; exact hte
      · exact absurd ⟨main, by simp, hm⟩ (hn m)

/-- C211: it raises exactly if the main term is not known, or one of the others is known for another quantity. -/
theorem synonyms_refused {s : St T} (hs : Live s) {main : T} {terms : List T} :
    (∃ e, addSynonyms L o main terms s = .error e) ↔
      getIndex L s.syn main = none ∨ ∃ t ∈ terms, ∃ j, getIndex L s.syn t = some j ∧ getIndex L s.syn main ≠ some j := by
  unfold addSynonyms
  cases hm : getIndex L s.syn main with
  | none => simp
  | some m =>
    simp only [reduceCtorEq, false_or]
    rcases addSet_merge (L := L) (o := o) s hs (main :: terms) (by simp) with
      ⟨⟨i, j, hij, ⟨t, ht, hi⟩, t', ht', hj⟩, he⟩ | ⟨⟨k, hk⟩, k', syn, hf, he, -⟩ | ⟨hn, -⟩
    · simp only [he]
      constructor
      · intro _
        by_cases him : i = m
        · rcases List.mem_cons.mp ht' with rfl | ht'
          · rw [show s.syn.dict.get? (L.san t') = some m from hm] at hj
            cases hj; exact absurd him hij
          · exact ⟨t', ht', j, hj, fun hh => hij (him.trans (Option.some.inj hh))⟩
        · rcases List.mem_cons.mp ht with rfl | ht
          · rw [show s.syn.dict.get? (L.san t) = some m from hm] at hi
            cases hi; exact absurd rfl him
          · exact ⟨t, ht, i, hi, fun hh => him (Option.some.inj hh).symm⟩
      · intro _; exact ⟨_, rfl⟩
    · simp only [he]
      constructor
      · rintro ⟨e, h⟩; cases h
      · rintro ⟨t, ht, j, hj, hne⟩
        have h1 := (hk j).mp ⟨t, List.mem_cons_of_mem _ ht, hj⟩
        have h2 := (hk m).mp ⟨main, by simp, hm⟩
        rw [h1, h2] at hne; exact absurd rfl hne
    · exact absurd ⟨main, by simp, hm⟩ (hn m)

/-! ### cases -/

/-- terms are numbers, 0 is the empty text -/
def exL : Lex ℕ := ⟨fun n => n, 0⟩
def exMass : Qty ℕ := { uuid := 1, link := 2, qname := 3 }
def exMass' : Qty ℕ := { uuid := 4, link := 5, qname := 3, syns := [6, 0] }
def exGwp : Qty ℕ := { uuid := 11, link := 12, qname := 13, method := true }
/-- another version, of the same name; and the same from another origin -/
def exGwp' : Qty ℕ := { uuid := 14, link := 15, qname := 13, method := true }
def exGwp2 : Qty ℕ := { uuid := 11, link := 16, qname := 13, method := true }
def exBlank : Qty ℕ := { uuid := 21, link := 22, qname := 23, syns := [0], method := true }

def exRun (l : List (Qty ℕ)) : Option (List ℕ × List (Option (Qty ℕ))) :=
  (registerAll exL (PyOrd.id ℕ) l {}).toOption.map fun x => (x.1, [1, 4, 6, 11, 14, 13].map (canonical exL x.2))

example : exRun [exMass, exMass', exGwp, exGwp', exGwp, exMass'] =
    some ([0, 0, 1, 2, 1, 0], [some exMass, some exMass, some exMass, some exGwp, some exGwp', some exGwp]) := by decide +kernel
-- the same method from two origins: 2 and then 1; an empty synonym: always another one
example : (exRun [exMass, exGwp, exGwp2, exGwp2, exBlank, exBlank]).map Prod.fst = some [0, 1, 2, 1, 3, 4] := by decide +kernel
-- terms of two quantities, and synonyms of one
example : exRun [exMass, { uuid := 31, link := 32, qname := 33 }, { uuid := 1, link := 32, qname := 34 }] = none := by decide +kernel
example : ((registerAll exL (PyOrd.id ℕ) [exMass, exGwp] {}).toOption.bind fun x =>
    (addSynonyms exL (PyOrd.id ℕ) 1 [40, 0, 2] x.2).toOption.map fun s => canonical exL s 40) = some (some exMass) ∧
    ((registerAll exL (PyOrd.id ℕ) [exMass, exGwp] {}).toOption.bind fun x =>
    (addSynonyms exL (PyOrd.id ℕ) 1 [40, 11] x.2).toOption.map fun s => canonical exL s 40) = none := by decide +kernel

end Qdq
