import Verif.Model.OldSyn

/-! Properties of the older synonym lists (C226–C228). -/

namespace OldSyn

variable {K : Type} [DecidableEq K]

/-! ### Specification -/

/-- A key is listed under an index exactly when the set kept at that index has it. -/
def Tidy (s : St K) : Prop := ∀ k i, s.dict.get? k = some i ↔ ∃ l, s.items[i]? = some (some l) ∧ k ∈ l

/-- The index holds a set (it was not merged away). -/
def Live (s : St K) (i : ℕ) : Prop := ∃ l, s.items[i]? = some (some l)

/-- Keys with no space around them. -/
def Trimmed (strip : K → K) (it : List K) : Prop := ∀ k ∈ it, strip k = k

/-- Lists built by the methods, from nothing: sets of trimmed keys, synonyms that are not in another set. -/
inductive Built (strip : K → K) : St K → Prop
  | empty : Built strip {}
  | addKey {s s'} (k i) : Built strip s → addKey strip k s = .ok (i, s') → Built strip s'
  | addSet {s s'} (it merge name i) : Built strip s → Trimmed strip it → addSet strip it merge name s = .ok (i, s') →
      Built strip s'
  | mergeIndices {s} (o ids) : Built strip s → Built strip (mergeIndices o ids s).1
  | addSynonym {s} (e n) : Built strip s →
      (index strip s n = none ∨ index strip s n = index strip s e) →
      Built strip (addSynonym strip e n s).1
  | addSetMerging {s} (o name syns) : Built strip s → Trimmed strip syns →
      Built strip (addSetMerging strip o name syns s).1

/-! ### Adding a key -/

theorem Tidy.live {s : St K} (h : Tidy s) {k : K} {i : ℕ} (hk : s.dict.get? k = some i) : Live s i := by
  obtain ⟨l, hl, _⟩ := (h k i).1 hk
  exact ⟨l, hl⟩

theorem Live.lt {s : St K} {i : ℕ} (h : Live s i) : i < s.items.length := by
  obtain ⟨l, hl⟩ := h
  exact (List.getElem?_eq_some_iff.1 hl).1

theorem newKey_spec (strip : K → K) (key : K) (i : ℕ) (s : St K) (hT : Tidy s) (hi : Live s i)
    (hk : s.dict.get? (strip key) = none ∨ s.dict.get? (strip key) = some i) :
    ∃ s', newKey strip key i s = .ok s' ∧ Tidy s' ∧ s'.items.length = s.items.length ∧
      (∀ j, Live s' j ↔ Live s j) ∧
      ∀ q, s'.dict.get? q = if strip key = q then some i else s.dict.get? q := by
  obtain ⟨l, hl⟩ := hi
  have hlt := (List.getElem?_eq_some_iff.1 hl).1
  refine ⟨{ s with items := s.items.set i (some (PySet.add l (strip key))), dict := s.dict.set (strip key) i },
    by simp [newKey, hl], ?_, by simp, ?_, fun q => Dict.get?_set _ _ _ _⟩
  · intro q j
    simp only [Dict.get?_set, List.getElem?_set]
    by_cases hij : i = j
    · subst hij
      simp only [hlt, if_true, Option.some.injEq, exists_eq_left', PySet.mem_add]
      by_cases hq : strip key = q
      · simp [hq]
      · rw [if_neg hq, hT q i]
        simp [hl, Ne.symm hq]
    · simp only [hij, if_false]
      by_cases hq : strip key = q
      · subst hq
        simp only [if_true, Option.some.injEq, hij, false_iff]
        intro hc
        rw [(hT _ _).2 hc] at hk
        rcases hk with hk | hk
        · cases hk
        · exact hij (Option.some.inj hk).symm
      · rw [if_neg hq]
        exact hT q j
  · intro j
    unfold Live
    simp only [List.getElem?_set]
    by_cases hij : i = j
    · subst hij
      rw [hl]
      simp [hlt]
    · simp [hij]

theorem newGroup_tidy (name : Option K) (s : St K) (hT : Tidy s) :
    Tidy (newGroup name s).2 ∧ Live (newGroup name s).2 s.items.length ∧
      (newGroup name s).2.dict = s.dict ∧ (newGroup name s).2.items.length = s.items.length + 1 ∧
      ∀ j, j ≠ s.items.length → (Live (newGroup name s).2 j ↔ Live s j) := by
  have aux : ∀ j, j ≠ s.items.length → (s.items ++ [some []])[j]? = s.items[j]? := by
    intro j hj
    rcases Nat.lt_or_gt_of_ne hj with h | h
    · rw [List.getElem?_append_left h]
    · rw [List.getElem?_eq_none (by simp; omega), List.getElem?_eq_none (by omega)]
  refine ⟨?_, ⟨[], by simp [newGroup]⟩, rfl, by simp [newGroup], ?_⟩
  · intro k i
    simp only [newGroup]
    by_cases hi : i = s.items.length
    · subst hi
      constructor
      · intro h
        exact absurd (hT.live h).lt (by simp)
      · rintro ⟨l, hl, hm⟩
        simp at hl
        subst hl
        simp at hm
    · rw [aux i hi]
      exact hT k i
  · intro j hj
    simp only [Live, newGroup, aux j hj]

theorem mergeSet_spec (strip : K → K) (i : ℕ) : ∀ (ks : List K) (s : St K), Tidy s → Live s i →
    (∀ k ∈ ks, s.dict.get? (strip k) = none ∨ s.dict.get? (strip k) = some i) →
    ∃ s', mergeSet strip i ks s = .ok s' ∧ Tidy s' ∧ s'.items.length = s.items.length ∧
      (∀ j, Live s' j ↔ Live s j) ∧
      ∀ q, s'.dict.get? q = if q ∈ ks.map strip then some i else s.dict.get? q
  | [], s, hT, _, _ => ⟨s, rfl, hT, rfl, fun _ => Iff.rfl, fun q => by simp⟩
  | k :: ks, s, hT, hi, hk => by
    obtain ⟨s₁, e₁, hT₁, hn₁, hl₁, hd₁⟩ := newKey_spec strip k i s hT hi (hk k (by simp))
    obtain ⟨s₂, e₂, hT₂, hn₂, hl₂, hd₂⟩ := mergeSet_spec strip i ks s₁ hT₁ ((hl₁ i).2 hi) (by
      intro q hq
      rw [hd₁]
      by_cases h : strip k = strip q
      · simp [h]
      · rw [if_neg h]
        exact hk q (by simp [hq]))
    refine ⟨s₂, by simp [mergeSet, e₁, e₂], hT₂, by rw [hn₂, hn₁], fun j => (hl₂ j).trans (hl₁ j), fun q => ?_⟩
    rw [hd₂, hd₁]
    by_cases h1 : q ∈ ks.map strip
    · rw [if_pos h1, if_pos (by simp only [List.map_cons, List.mem_cons]; exact .inr h1)]
    · rw [if_neg h1]
      by_cases h2 : strip k = q
      · subst h2
        simp
      · rw [if_neg h2, if_neg]
        simp only [List.map_cons, List.mem_cons, not_or]
        exact ⟨Ne.symm h2, h1⟩

theorem newSetLoop_spec (strip : K → K) (i : ℕ) : ∀ (ks : List K) (s : St K), Tidy s → Live s i → Trimmed strip ks →
    ∃ s', newSetLoop strip i ks s = .ok s' ∧ Tidy s' ∧ s'.items.length = s.items.length ∧
      (∀ j, Live s' j ↔ Live s j) ∧
      ∀ q, s'.dict.get? q = if q ∈ ks ∧ s.dict.get? q = none then some i else s.dict.get? q
  | [], s, hT, _, _ => ⟨s, rfl, hT, rfl, fun _ => Iff.rfl, fun q => by simp⟩
  | k :: ks, s, hT, hi, ht => by
    have ht' : Trimmed strip ks := fun q hq => ht q (by simp [hq])
    by_cases hk : s.dict.has k = true
    · obtain ⟨s₂, e₂, hT₂, hn₂, hl₂, hd₂⟩ := newSetLoop_spec strip i ks s hT hi ht'
      refine ⟨s₂, by simp [newSetLoop, hk, e₂], hT₂, hn₂, hl₂, fun q => ?_⟩
      rw [hd₂]
      by_cases hq : q = k
      · subst hq
        have : s.dict.get? q ≠ none := by
          intro hc
          simp [Dict.has, hc] at hk
        simp [this]
      · simp [hq]
    · have hnone : s.dict.get? k = none := by
        cases h : s.dict.get? k with
        | none => rfl
        | some v => simp [Dict.has, h] at hk
      have hs : strip k = k := ht k (by simp)
      obtain ⟨s₁, e₁, hT₁, hn₁, hl₁, hd₁⟩ := newKey_spec strip k i s hT hi (.inl (by rw [hs]; exact hnone))
      obtain ⟨s₂, e₂, hT₂, hn₂, hl₂, hd₂⟩ := newSetLoop_spec strip i ks s₁ hT₁ ((hl₁ i).2 hi) ht'
      refine ⟨s₂, by simp [newSetLoop, hk, e₁, e₂], hT₂, by rw [hn₂, hn₁], fun j => (hl₂ j).trans (hl₁ j), fun q => ?_⟩
      rw [hd₂, hd₁, hs]
      by_cases hq : k = q
      · subst hq
        simp [hnone]
      · simp [hq, Ne.symm hq]

/-! ### The methods -/

theorem addKey_spec (strip : K → K) (hs : ∀ k, strip (strip k) = strip k) (key : K) (s : St K) (hT : Tidy s) :
    ∃ i s', addKey strip key s = .ok (i, s') ∧ Tidy s' ∧ Live s' i ∧ (∀ j, Live s j → Live s' j) ∧
      (s.dict.get? (strip key) = some i ∧ s' = s ∨ s.dict.get? (strip key) = none ∧ i = s.items.length) ∧
      ∀ q, s'.dict.get? q = if q = strip key then some i else s.dict.get? q := by
  unfold addKey
  cases h : s.dict.get? (strip key) with
  | some i =>
    refine ⟨i, s, rfl, hT, hT.live h, fun _ hj => hj, .inl ⟨rfl, rfl⟩, fun q => ?_⟩
    by_cases hq : q = strip key
    · simp [hq, h]
    · simp [hq]
  | none =>
    obtain ⟨gT, gL, gd, gn, gj⟩ := newGroup_tidy none s hT
    obtain ⟨s₁, e₁, hT₁, hn₁, hl₁, hd₁⟩ := newKey_spec strip (strip key) s.items.length (newGroup none s).2 gT gL
      (.inl (by rw [gd, hs]; exact h))
    have e₁' : newKey strip (strip key) (newGroup none s).1 (newGroup none s).2 = .ok s₁ := e₁
    have hself : s₁.dict.get? (strip key) = some s.items.length := by rw [hd₁, hs]; simp
    refine ⟨s.items.length, s₁, ?_, hT₁, (hl₁ _).2 gL, fun j hj => (hl₁ j).2 ((gj j ?_).2 hj), .inr ⟨rfl, rfl⟩,
      fun q => ?_⟩
    · simp only [e₁', hself]
    · exact Nat.ne_of_lt hj.lt
    · rw [hd₁, hs, gd]
      by_cases hq : q = strip key
      · simp [hq]
      · simp [hq, Ne.symm hq]

theorem mem_findIndices (strip : K → K) (it : List K) (s : St K) (i : ℕ) :
    i ∈ findIndices strip it s ↔ ∃ k ∈ it, index strip s k = some i := by
  simp [findIndices, index]

theorem newSet_spec (strip : K → K) (it : List K) (name : Option K) (s : St K) (hT : Tidy s) (ht : Trimmed strip it) :
    ∃ s', newSet strip it name s = .ok (s.items.length, s') ∧ Tidy s' ∧ (∀ j, Live s j → Live s' j) ∧
      ∀ q, s'.dict.get? q = if q ∈ it ∧ s.dict.get? q = none then some s.items.length else s.dict.get? q := by
  obtain ⟨gT, gL, gd, gn, gj⟩ := newGroup_tidy name s hT
  obtain ⟨s₁, e₁, hT₁, hn₁, hl₁, hd₁⟩ := newSetLoop_spec strip s.items.length it _ gT gL ht
  have e₁' : newSetLoop strip (newGroup name s).1 it (newGroup name s).2 = .ok s₁ := e₁
  refine ⟨s₁, ?_, hT₁, fun j hj => (hl₁ j).2 ((gj j (Nat.ne_of_lt hj.lt)).2 hj), fun q => ?_⟩
  · simp only [newSet, e₁']
    rfl
  · rw [hd₁, gd]

/-- Two keys of `it` are in different sets. -/
def Inconsistent (strip : K → K) (it : List K) (s : St K) : Prop :=
  ∃ k ∈ it, ∃ k' ∈ it, ∃ i i', index strip s k = some i ∧ index strip s k' = some i' ∧ i ≠ i'

theorem findIndices_cases (strip : K → K) (it : List K) (s : St K) :
    (findIndices strip it s = [] ∧ ∀ k ∈ it, index strip s k = none) ∨
    (∃ i, findIndices strip it s = [i] ∧ (∃ k ∈ it, index strip s k = some i) ∧
      ∀ k ∈ it, index strip s k = none ∨ index strip s k = some i) ∨
    ((∃ a b r, findIndices strip it s = a :: b :: r) ∧ Inconsistent strip it s) := by
  have hm := mem_findIndices strip it s
  have hnd : (findIndices strip it s).Nodup := PySet.nodup_ofList _
  rcases h : findIndices strip it s with _ | ⟨a, _ | ⟨b, r⟩⟩
  · refine .inl ⟨rfl, fun k hk => ?_⟩
    cases hx : index strip s k with
    | none => rfl
    | some i =>
      have := (hm i).2 ⟨k, hk, hx⟩
      rw [h] at this
      cases this
  · refine .inr (.inl ⟨a, rfl, (hm a).1 (by rw [h]; simp), fun k hk => ?_⟩)
    cases hx : index strip s k with
    | none => exact .inl rfl
    | some i =>
      have := (hm i).2 ⟨k, hk, hx⟩
      rw [h, List.mem_singleton] at this
      exact .inr (by rw [this])
  · refine .inr (.inr ⟨⟨a, b, r, rfl⟩, ?_⟩)
    obtain ⟨k, hk, hka⟩ := (hm a).1 (by rw [h]; simp)
    obtain ⟨k', hk', hkb⟩ := (hm b).1 (by rw [h]; simp)
    refine ⟨k, hk, k', hk', a, b, hka, hkb, ?_⟩
    rw [h] at hnd
    simp only [List.nodup_cons, List.mem_cons, not_or] at hnd
    exact hnd.1.1

theorem not_inconsistent_of_single {strip : K → K} {it : List K} {s : St K} {i : ℕ}
    (h : ∀ k ∈ it, index strip s k = none ∨ index strip s k = some i) : ¬ Inconsistent strip it s := by
  rintro ⟨k, hk, k', hk', a, b, ha, hb, hne⟩
  rcases h k hk with h1 | h1 <;> rcases h k' hk' with h2 | h2 <;> simp_all

/-- What `add_set` does when no exception is raised, and when one is. -/
theorem addSet_full (strip : K → K) (it : List K) (merge : Bool) (name : Option K) (s : St K)
    (hT : Tidy s) (ht : Trimmed strip it) :
    (Inconsistent strip it s ∧ addSet strip it merge name s = .error .inconsistent) ∨
    (¬ Inconsistent strip it s ∧ ∃ i s', addSet strip it merge name s = .ok (i, s') ∧ Tidy s' ∧
      (∀ j, Live s j → Live s' j) ∧
      ((merge = true ∧ ∃ k ∈ it, index strip s k = some i) ∨
        ((merge = false ∨ ∀ k ∈ it, index strip s k = none) ∧ i = s.items.length)) ∧
      ∀ q, s'.dict.get? q = if q ∈ it ∧ s.dict.get? q = none then some i else s.dict.get? q) := by
  have hnew := newSet_spec strip it name s hT ht
  rcases findIndices_cases strip it s with ⟨h, hn⟩ | ⟨i, h, hex, hn⟩ | ⟨⟨a, b, r, h⟩, hinc⟩
  · refine .inr ⟨not_inconsistent_of_single (i := 0) fun k hk => .inl (hn k hk), ?_⟩
    obtain ⟨s', e, hT', hl, hd⟩ := hnew
    refine ⟨_, s', ?_, hT', hl, .inr ⟨.inr hn, rfl⟩, hd⟩
    simp [addSet, h, e]
  · refine .inr ⟨not_inconsistent_of_single hn, ?_⟩
    cases merge with
    | false =>
      obtain ⟨s', e, hT', hl, hd⟩ := hnew
      refine ⟨_, s', ?_, hT', hl, .inr ⟨.inl rfl, rfl⟩, hd⟩
      simp [addSet, h, e]
    | true =>
      obtain ⟨k₀, hk₀, hi₀⟩ := hex
      obtain ⟨s', e, hT', _, hl, hd⟩ := mergeSet_spec strip i it s hT (hT.live hi₀) hn
      refine ⟨i, s', by simp [addSet, h, e], hT', fun j hj => (hl j).2 hj, .inl ⟨rfl, k₀, hk₀, hi₀⟩, fun q => ?_⟩
      have hmap : it.map strip = it := (List.map_congr_left (g := id) fun k hk => ht k hk).trans (List.map_id it)
      rw [hd, hmap]
      by_cases hq : q ∈ it
      · have := hn q hq
        unfold index at this
        rw [ht q hq] at this
        rcases this with h2 | h2 <;> simp [hq, h2]
      · simp [hq]
  · exact .inl ⟨hinc, by simp [addSet, h]⟩

/-! ### Merging -/

theorem foldl_set_get? (i : ℕ) (q : K) : ∀ (u : List K) (d : Dict K ℕ),
    (u.foldl (fun d k => d.set k i) d).get? q = if q ∈ u then some i else d.get? q
  | [], d => by simp
  | k :: u, d => by
    rw [List.foldl_cons, foldl_set_get? i q u, Dict.get?_set]
    by_cases h1 : q ∈ u
    · simp [h1]
    · by_cases h2 : k = q
      · simp [h2]
      · simp [h1, h2, Ne.symm h2]

theorem mergeOne_tidy (m into : ℕ) (s s' : St K) (hne : m ≠ into) (hT : Tidy s) (h : mergeOne m into s = .ok s') :
    Tidy s' ∧ ¬ Live s' m ∧ (∀ j, j ≠ m → (Live s' j ↔ Live s j)) ∧
      ∀ q, s'.dict.get? q = if s.dict.get? q = some m then some into else s.dict.get? q := by
  rcases hm : s.items[m]? with _ | _ | b <;> rcases hi : s.items[into]? with _ | _ | a <;>
    simp only [mergeOne, hm, hi, reduceCtorEq, Except.ok.injEq] at h
  subst h
  have hmlt := (List.getElem?_eq_some_iff.1 hm).1
  have hilt := (List.getElem?_eq_some_iff.1 hi).1
  have hitem : ∀ j, ((s.items.set into (some (PySet.union a b))).set m none)[j]? =
      if m = j then some none else if into = j then some (some (PySet.union a b)) else s.items[j]? := by
    intro j
    rw [List.getElem?_set, List.getElem?_set]
    by_cases h1 : m = j
    · subst h1
      simp [hmlt]
    · by_cases h2 : into = j
      · subst h2
        simp [h1, hilt]
      · simp [h1, h2]
  have hdict : ∀ q, ((PySet.union a b).foldl (fun d k => d.set k into) s.dict).get? q =
      if s.dict.get? q = some m then some into else s.dict.get? q := by
    intro q
    rw [foldl_set_get?]
    have hqm := hT q m
    have hqi := hT q into
    simp only [hm, hi, Option.some.injEq, exists_eq_left'] at hqm hqi
    by_cases h1 : s.dict.get? q = some m
    · rw [if_pos h1, if_pos (by rw [PySet.mem_union]; exact .inr (hqm.1 h1))]
    · rw [if_neg h1]
      by_cases h2 : s.dict.get? q = some into
      · simp [h2]
      · rw [if_neg]
        rw [PySet.mem_union, not_or]
        exact ⟨fun hc => h2 (hqi.2 hc), fun hc => h1 (hqm.2 hc)⟩
  refine ⟨?_, ?_, ?_, hdict⟩
  · intro q j
    rw [hdict, hitem]
    have hqm := hT q m
    have hqi := hT q into
    have hqj := hT q j
    simp only [hm, hi, Option.some.injEq, exists_eq_left'] at hqm hqi
    by_cases h1 : m = j
    · subst h1
      by_cases h2 : s.dict.get? q = some m
      · simp [h2, Ne.symm hne]
      · simp [h2]
    · rw [if_neg h1]
      by_cases h2 : into = j
      · subst h2
        simp only [if_true, Option.some.injEq, exists_eq_left', PySet.mem_union, ← hqi, ← hqm]
        by_cases h3 : s.dict.get? q = some m
        · simp [h3]
        · simp [h3]
      · rw [if_neg h2]
        by_cases h3 : s.dict.get? q = some m
        · rw [← hqj, h3]
          simp [h1, h2]
        · rw [if_neg h3]
          exact hqj
  · rintro ⟨l, hl⟩
    simp only [hitem] at hl
    simp at hl
  · intro j hj
    unfold Live
    simp only [hitem]
    rw [if_neg (Ne.symm hj)]
    by_cases h2 : into = j
    · subst h2
      simp [hi]
    · simp [h2]

theorem mergeLoop_tidy (into : ℕ) : ∀ (ms : List ℕ) (s : St K), into ∉ ms → Tidy s → Tidy (mergeLoop into ms s).1
  | [], _, _, hT => hT
  | m :: ms, s, hn, hT => by
    simp only [List.mem_cons, not_or] at hn
    rw [mergeLoop]
    cases h : mergeOne m into s with
    | error e => exact hT
    | ok s' => exact mergeLoop_tidy into ms s' hn.2 (mergeOne_tidy m into s s' (Ne.symm hn.1) hT h).1

theorem mergeLoop_spec (into : ℕ) : ∀ (ms : List ℕ) (s : St K), into ∉ ms → ms.Nodup → Tidy s → Live s into →
    (∀ m ∈ ms, Live s m) → ∃ s', mergeLoop into ms s = (s', none) ∧
      (∀ m ∈ ms, ¬ Live s' m) ∧ (∀ j, j ∉ ms → (Live s' j ↔ Live s j)) ∧
      ∀ q, s'.dict.get? q = if ∃ m ∈ ms, s.dict.get? q = some m then some into else s.dict.get? q
  | [], s, _, _, _, _, _ => ⟨s, rfl, by simp, fun _ _ => Iff.rfl, fun q => by simp⟩
  | m :: ms, s, hn, hnd, hT, hi, hm => by
    simp only [List.mem_cons, not_or] at hn
    rw [List.nodup_cons] at hnd
    obtain ⟨s₁, e₁⟩ : ∃ s₁, mergeOne m into s = .ok s₁ := by
      obtain ⟨a, ha⟩ := hi
      obtain ⟨b, hb⟩ := hm m (by simp)
      simp [mergeOne, ha, hb]
    obtain ⟨hT₁, hd₁, hl₁, hq₁⟩ := mergeOne_tidy m into s s₁ (Ne.symm hn.1) hT e₁
    have hne : ∀ j ∈ ms, j ≠ m := fun j hj hc => hnd.1 (hc ▸ hj)
    obtain ⟨s₂, e₂, hd₂, hl₂, hq₂⟩ := mergeLoop_spec into ms s₁ hn.2 hnd.2 hT₁ ((hl₁ into hn.1).2 hi)
      (fun j hj => (hl₁ j (hne j hj)).2 (hm j (by simp [hj])))
    refine ⟨s₂, by simp [mergeLoop, e₁, e₂], ?_, ?_, fun q => ?_⟩
    · intro j hj
      rcases List.mem_cons.1 hj with h | h
      · subst h
        exact fun hc => hd₁ ((hl₂ _ hnd.1).1 hc)
      · exact hd₂ j h
    · intro j hj
      simp only [List.mem_cons, not_or] at hj
      exact (hl₂ j hj.2).trans (hl₁ j hj.1)
    · rw [hq₂, hq₁]
      by_cases h1 : s.dict.get? q = some m
      · simp [h1]
      · simp [h1]

theorem min_mem {ids : List ℕ} {into : ℕ} (h : ids.min? = some into) : into ∈ ids ∧ ∀ j ∈ ids, into ≤ j := by
  have := List.min?_eq_some_iff.1 h
  exact ⟨this.1, fun j hj => this.2 j hj⟩

theorem mergeIndices_tidy (o : PyOrd ℕ) (ids : List ℕ) (s : St K) (hT : Tidy s) : Tidy (mergeIndices o ids s).1 := by
  unfold mergeIndices
  cases h : ids.min? with
  | none => exact hT
  | some into =>
    refine mergeLoop_tidy into _ s ?_ hT
    rw [PyOrd.mem]
    simp

theorem addSynonym_tidy (strip : K → K) (hs : ∀ k, strip (strip k) = strip k) (e n : K) (s : St K) (hT : Tidy s)
    (hn : index strip s n = none ∨ index strip s n = index strip s e) :
    Tidy (addSynonym strip e n s).1 := by
  obtain ⟨i, s₁, e₁, hT₁, hi₁, _, hcase, hq₁⟩ := addKey_spec strip hs e s hT
  have hk : s₁.dict.get? (strip n) = none ∨ s₁.dict.get? (strip n) = some i := by
    rw [hq₁]
    by_cases h : strip n = strip e
    · simp [h]
    · rw [if_neg h]
      unfold index at hn
      rcases hn with hn | hn
      · exact .inl hn
      · rw [hn]
        rcases hcase with ⟨hc, _⟩ | ⟨hc, _⟩
        · exact .inr hc
        · exact .inl hc
  obtain ⟨s₂, e₂, hT₂, _⟩ := newKey_spec strip n i s₁ hT₁ hi₁ hk
  simp only [addSynonym, e₁, e₂]
  exact hT₂

theorem addSetMerging_tidy (strip : K → K) (o : PyOrd ℕ) (name : K) (syns : List K) (s : St K) (hT : Tidy s)
    (ht : Trimmed strip syns) : Tidy (addSetMerging strip o name syns s).1 := by
  unfold addSetMerging
  rcases addSet_full strip syns true (some name) s hT ht with ⟨_, e⟩ | ⟨_, i, s', e, hT', _⟩
  · have hm := mergeIndices_tidy o (findIndices strip syns s) s hT
    rw [e]
    dsimp only
    rcases h : mergeIndices o (findIndices strip syns s) s with ⟨s', _ | er⟩
    · rw [h] at hm
      exact hm
    · rw [h] at hm
      exact hm
  · rw [e]
    exact hT'

theorem Built.tidy {strip : K → K} (hs : ∀ k, strip (strip k) = strip k) {s : St K} (h : Built strip s) : Tidy s := by
  induction h with
  | empty =>
    intro k i
    simp
  | addKey k i _ he ih =>
    obtain ⟨i', s₁, e₁, hT₁, _⟩ := addKey_spec strip hs k _ ih
    rw [e₁] at he
    cases he
    exact hT₁
  | addSet it merge name i _ ht he ih =>
    rcases addSet_full strip it merge name _ ih ht with ⟨_, e⟩ | ⟨_, i', s₁, e, hT₁, _⟩
    · rw [e] at he
      cases he
    · rw [e] at he
      cases he
      exact hT₁
  | mergeIndices o ids _ ih => exact mergeIndices_tidy o ids _ ih
  | addSynonym e n _ hn ih => exact addSynonym_tidy strip hs e n _ ih hn
  | addSetMerging o name syns _ ht ih => exact addSetMerging_tidy strip o name syns _ ih ht

/-! ### C226 -/

/-- Each key of a list built by the methods is in exactly one set, the one its index names. -/
theorem C226_keys_and_sets_agree {strip : K → K} (hs : ∀ k, strip (strip k) = strip k) {s : St K} (h : Built strip s) :
    (∀ k i, index strip s k = some i ↔ ∃ l, s.items[i]? = some (some l) ∧ strip k ∈ l) ∧
    (∀ (k : K) (i j : ℕ) (l m : List K), s.items[i]? = some (some l) → s.items[j]? = some (some m) → k ∈ l → k ∈ m → i = j) := by
  have hT := h.tidy hs
  refine ⟨fun k i => hT (strip k) i, fun k i j l m hl hm hkl hkm => ?_⟩
  have h1 := (hT k i).2 ⟨l, hl, hkl⟩
  have h2 := (hT k j).2 ⟨m, hm, hkm⟩
  rw [h1] at h2
  exact Option.some.inj h2

/-! ### C227 -/

/-- `add_set`: refused exactly when two of the keys are in different sets; otherwise the keys that were unknown are put
in one set, and no other key moves. The set is the one that had some of the keys, if merging was asked for and there is
one; it is a new one otherwise. -/
theorem C227_add_set {strip : K → K} (hs : ∀ k, strip (strip k) = strip k) {s : St K} (h : Built strip s)
    (it : List K) (merge : Bool) (name : Option K) (ht : Trimmed strip it) :
    (addSet strip it merge name s = .error .inconsistent ↔ Inconsistent strip it s) ∧
    (¬ Inconsistent strip it s → ∃ i s', addSet strip it merge name s = .ok (i, s') ∧
      ((merge = true ∧ ∃ k ∈ it, index strip s k = some i) ∨
        ((merge = false ∨ ∀ k ∈ it, index strip s k = none) ∧ i = s.items.length)) ∧
      (∀ k ∈ it, index strip s k = none → index strip s' k = some i) ∧
      (∀ k, strip k ∉ it ∨ index strip s k ≠ none → index strip s' k = index strip s k)) := by
  rcases addSet_full strip it merge name s (h.tidy hs) ht with ⟨hi, e⟩ | ⟨hi, i, s', e, hT', _, hc, hq⟩
  · exact ⟨⟨fun _ => hi, fun _ => e⟩, fun hn => absurd hi hn⟩
  · refine ⟨⟨fun hx => ?_, fun hx => absurd hx hi⟩, fun _ => ⟨i, s', e, hc, ?_, ?_⟩⟩
    · rw [e] at hx
      cases hx
    · intro k hk hn
      unfold index at hn ⊢
      rw [hq, if_pos ⟨by rw [ht k hk]; exact hk, hn⟩]
    · intro k hk
      unfold index at hk ⊢
      rw [hq, if_neg]
      rintro ⟨h1, h2⟩
      rcases hk with hk | hk
      · exact hk h1
      · exact hk h2

/-- `add_key`: the index of the key, or a new one, under which it is then found; other keys stay where they are. -/
theorem C227_add_key {strip : K → K} (hs : ∀ k, strip (strip k) = strip k) {s : St K} (h : Built strip s) (key : K) :
    ∃ i s', addKey strip key s = .ok (i, s') ∧ index strip s' key = some i ∧
      (index strip s key = some i ∧ s' = s ∨ index strip s key = none ∧ i = s.items.length) ∧
      ∀ k, strip k ≠ strip key → index strip s' k = index strip s k := by
  obtain ⟨i, s', e, _, _, _, hc, hq⟩ := addKey_spec strip hs key s (h.tidy hs)
  refine ⟨i, s', e, ?_, hc, fun k hk => ?_⟩
  · unfold index
    rw [hq, if_pos rfl]
  · unfold index
    rw [hq, if_neg hk]

/-- `add_synonym`: both keys are found under the index returned, and other keys stay where they are. -/
theorem C227_add_synonym {strip : K → K} (hs : ∀ k, strip (strip k) = strip k) {s : St K} (h : Built strip s) (e n : K)
    (hn : index strip s n = none ∨ index strip s n = index strip s e) :
    ∃ i s', addSynonym strip e n s = (s', .ok i) ∧ index strip s' e = some i ∧ index strip s' n = some i ∧
      (index strip s e = some i ∨ index strip s e = none ∧ i = s.items.length) ∧
      ∀ k, strip k ≠ strip e → strip k ≠ strip n → index strip s' k = index strip s k := by
  obtain ⟨i, s₁, e₁, hT₁, hi₁, _, hcase, hq₁⟩ := addKey_spec strip hs e s (h.tidy hs)
  have hk : s₁.dict.get? (strip n) = none ∨ s₁.dict.get? (strip n) = some i := by
    rw [hq₁]
    by_cases h : strip n = strip e
    · simp [h]
    · rw [if_neg h]
      unfold index at hn
      rcases hn with hn | hn
      · exact .inl hn
      · rw [hn]
        rcases hcase with ⟨hc, _⟩ | ⟨hc, _⟩
        · exact .inr hc
        · exact .inl hc
  obtain ⟨s₂, e₂, _, _, _, hq₂⟩ := newKey_spec strip n i s₁ hT₁ hi₁ hk
  refine ⟨i, s₂, by simp [addSynonym, e₁, e₂], ?_, ?_, ?_, fun k h1 h2 => ?_⟩
  · unfold index
    rw [hq₂, hq₁, if_pos rfl]
    split <;> rfl
  · unfold index
    rw [hq₂, if_pos rfl]
  · rcases hcase with ⟨hc, _⟩ | hc
    · exact .inl hc
    · exact .inr hc
  · unfold index
    rw [hq₂, hq₁, if_neg (Ne.symm h2), if_neg h1]

/-- A set added under a new index has the name given, and the sets that were there keep theirs. -/
theorem C227_new_set_name {strip : K → K} {s s' : St K} (it : List K) (name : Option K) (i : ℕ)
    (h : newSet strip it name s = .ok (i, s')) : s'.names = s.names ++ [name] := by
  have key : ∀ (ks : List K) (a b : St K) (j : ℕ), newSetLoop strip j ks a = .ok b → b.names = a.names := by
    intro ks
    induction ks with
    | nil =>
      intro a b j hx
      cases hx
      rfl
    | cons k ks ih =>
      intro a b j hx
      rw [newSetLoop] at hx
      split at hx
      · exact ih a b j hx
      · cases hn : newKey strip k j a with
        | error e =>
          rw [hn] at hx
          cases hx
        | ok a' =>
          rw [hn] at hx
          rw [ih a' b j hx]
          unfold newKey at hn
          split at hn <;> cases hn
          rfl
  unfold newSet at h
  cases hx : newSetLoop strip (newGroup name s).1 it (newGroup name s).2 with
  | error e =>
    simp only [hx] at h
    cases h
  | ok a =>
    simp only [hx] at h
    cases h
    exact key _ _ _ _ hx

/-! ### C228 -/

/-- `merge_indices` of sets that are there, in whatever order they are gone through: their keys are all found in the set
of lowest index, every other key where it was, and the other merged indices hold nothing. -/
theorem C228_merge_indices {strip : K → K} (hs : ∀ k, strip (strip k) = strip k) {s : St K} (h : Built strip s)
    (o : PyOrd ℕ) (ids : List ℕ) (hl : ∀ i ∈ ids, Live s i) (into : ℕ) (hin : into ∈ ids) (hmin : ∀ i ∈ ids, into ≤ i) :
    ∃ s', mergeIndices o ids s = (s', none) ∧
      (∀ k i, i ∈ ids → index strip s k = some i → index strip s' k = some into) ∧
      (∀ k, (∀ i ∈ ids, index strip s k ≠ some i) → index strip s' k = index strip s k) ∧
      (∀ i, Live s' i ↔ Live s i ∧ (i = into ∨ i ∉ ids)) := by
  have hT := h.tidy hs
  have hmin? : ids.min? = some into := List.min?_eq_some_iff.2 ⟨hin, fun j hj => hmin j hj⟩
  have hmem : ∀ j, j ∈ o.f ((PySet.ofList ids).filter fun i => decide (i ≠ into)) ↔ j ∈ ids ∧ j ≠ into := by
    intro j
    rw [PyOrd.mem]
    simp
  obtain ⟨s', e, hd, hk, hq⟩ := mergeLoop_spec into (o.f ((PySet.ofList ids).filter fun i => decide (i ≠ into))) s
    (by rw [hmem]; simp) ((o.perm _).nodup_iff.2 ((PySet.nodup_ofList ids).filter _)) hT (hl into hin)
    (fun m hm => hl m ((hmem m).1 hm).1)
  refine ⟨s', by simp only [mergeIndices, hmin?]; exact e, ?_, ?_, ?_⟩
  · intro k i hi hki
    unfold index at hki ⊢
    rw [hq, hki]
    by_cases hii : i = into
    · simp [hii]
    · rw [if_pos ⟨i, (hmem i).2 ⟨hi, hii⟩, rfl⟩]
  · intro k hn
    unfold index at hn ⊢
    rw [hq, if_neg]
    rintro ⟨m, hm, he⟩
    exact hn m ((hmem m).1 hm).1 he
  · intro i
    by_cases hi : i ∈ ids ∧ i ≠ into
    · have := hd i ((hmem i).2 hi)
      simp [this, hi.1, hi.2]
    · rw [hk i (fun hc => hi ((hmem i).1 hc))]
      constructor
      · intro hx
        refine ⟨hx, ?_⟩
        by_cases h1 : i = into
        · exact .inl h1
        · exact .inr fun hc => hi ⟨hc, h1⟩
      · exact fun hx => hx.1

/-- `_add_set`, when two of the synonyms are in different sets: the sets are merged and nothing is added, so a synonym
that was not in the list is still not in it; no index is returned. -/
theorem C228_inconsistent_synonyms_are_dropped {strip : K → K} (hs : ∀ k, strip (strip k) = strip k) {s : St K}
    (h : Built strip s) (o : PyOrd ℕ) (name : K) (syns : List K) (hi : Inconsistent strip syns s)
    (ht : Trimmed strip syns) :
    ∃ s', addSetMerging strip o name syns s = (s', .ok none) ∧
      (∀ k, index strip s k = none → index strip s' k = none) ∧
      ∃ into, ∀ k ∈ syns, index strip s k ≠ none → index strip s' k = some into := by
  have hT := h.tidy hs
  have hm := mem_findIndices strip syns s
  obtain ⟨k₀, hk₀, _, _, i₀, _, hi₀, _⟩ := id hi
  have hne : findIndices strip syns s ≠ [] := by
    intro hc
    have := (hm i₀).2 ⟨k₀, hk₀, hi₀⟩
    rw [hc] at this
    cases this
  obtain ⟨into, hinto⟩ : ∃ into, (findIndices strip syns s).min? = some into := by
    cases hx : (findIndices strip syns s).min? with
    | none => exact absurd (List.min?_eq_none_iff.1 hx) hne
    | some a => exact ⟨a, rfl⟩
  obtain ⟨h1, h2⟩ := min_mem hinto
  obtain ⟨s', e, ha, hb, _⟩ := C228_merge_indices hs h o (findIndices strip syns s)
    (fun i hx => by
      obtain ⟨k, _, hk⟩ := (hm i).1 hx
      exact hT.live hk) into h1 h2
  refine ⟨s', ?_, ?_, into, ?_⟩
  · rcases addSet_full strip syns true (some name) s hT ht with ⟨_, e'⟩ | ⟨hn, _⟩
    · simp only [addSetMerging, e', e]
    · exact absurd hi hn
  · intro k hk
    rw [hb k (fun i _ => by rw [hk]; simp), hk]
  · intro k hk hx
    cases hv : index strip s k with
    | none => exact absurd hv hx
    | some i => exact ha k i ((hm i).2 ⟨k, hk, hv⟩) hv

/-! ### Writing and reading -/

/-- As many names as sets; keys are listed trimmed. -/
def WF (strip : K → K) (s : St K) : Prop :=
  s.names.length = s.items.length ∧ ∀ k i, s.dict.get? k = some i → strip k = k

theorem newKey_wf {strip : K → K} (hs : ∀ k, strip (strip k) = strip k) {key : K} {i : ℕ} {s s' : St K}
    (h : WF strip s) (e : newKey strip key i s = .ok s') : WF strip s' := by
  unfold newKey at e
  split at e <;> cases e
  refine ⟨by simp [h.1], fun k j hk => ?_⟩
  rw [Dict.get?_set] at hk
  split at hk
  · rename_i hx
    rw [← hx, hs]
  · exact h.2 k j hk

theorem newGroup_wf {strip : K → K} (name : Option K) {s : St K} (h : WF strip s) : WF strip (newGroup name s).2 :=
  ⟨by simp [newGroup, h.1], h.2⟩

theorem mergeSet_wf {strip : K → K} (hs : ∀ k, strip (strip k) = strip k) (i : ℕ) : ∀ (ks : List K) (s s' : St K),
    WF strip s → mergeSet strip i ks s = .ok s' → WF strip s'
  | [], s, s', h, e => by cases e; exact h
  | k :: ks, s, s', h, e => by
    rw [mergeSet] at e
    cases hn : newKey strip k i s with
    | error er => rw [hn] at e; cases e
    | ok a =>
      rw [hn] at e
      exact mergeSet_wf hs i ks a s' (newKey_wf hs h hn) e

theorem newSetLoop_wf {strip : K → K} (hs : ∀ k, strip (strip k) = strip k) (i : ℕ) : ∀ (ks : List K) (s s' : St K),
    WF strip s → newSetLoop strip i ks s = .ok s' → WF strip s'
  | [], s, s', h, e => by cases e; exact h
  | k :: ks, s, s', h, e => by
    rw [newSetLoop] at e
    split at e
    · exact newSetLoop_wf hs i ks s s' h e
    · cases hn : newKey strip k i s with
      | error er => rw [hn] at e; cases e
      | ok a =>
        rw [hn] at e
        exact newSetLoop_wf hs i ks a s' (newKey_wf hs h hn) e

theorem newSet_wf {strip : K → K} (hs : ∀ k, strip (strip k) = strip k) {it : List K} {name : Option K} {s s' : St K}
    {i : ℕ} (h : WF strip s) (e : newSet strip it name s = .ok (i, s')) : WF strip s' := by
  unfold newSet at e
  cases hx : newSetLoop strip (newGroup name s).1 it (newGroup name s).2 with
  | error er => simp only [hx] at e; cases e
  | ok a =>
    simp only [hx] at e
    cases e
    exact newSetLoop_wf hs _ _ _ _ (newGroup_wf name h) hx

theorem addSet_wf {strip : K → K} (hs : ∀ k, strip (strip k) = strip k) {it : List K} {merge : Bool}
    {name : Option K} {s s' : St K} {i : ℕ} (h : WF strip s) (e : addSet strip it merge name s = .ok (i, s')) :
    WF strip s' := by
  unfold addSet at e
  rcases h' : findIndices strip it s with _ | ⟨a, _ | ⟨b, r⟩⟩ <;> rw [h'] at e
  · exact newSet_wf hs h e
  · cases merge with
    | false => exact newSet_wf hs h e
    | true =>
      dsimp only at e
      cases hx : mergeSet strip a it s with
      | error er => rw [hx] at e; cases e
      | ok s₁ =>
        rw [hx] at e
        cases e
        exact mergeSet_wf hs _ _ _ _ h hx
  · cases e

theorem addKey_wf {strip : K → K} (hs : ∀ k, strip (strip k) = strip k) {key : K} {s s' : St K} {i : ℕ}
    (h : WF strip s) (e : addKey strip key s = .ok (i, s')) : WF strip s' := by
  unfold addKey at e
  split at e
  · cases e
    exact h
  · cases hx : newKey strip (strip key) (newGroup none s).1 (newGroup none s).2 with
    | error er => simp only [hx] at e; cases e
    | ok a =>
      simp only [hx] at e
      split at e <;> cases e
      exact newKey_wf hs (newGroup_wf none h) hx

theorem mergeLoop_wf {strip : K → K} (into : ℕ) : ∀ (ms : List ℕ) (s : St K), into ∉ ms → Tidy s → WF strip s →
    WF strip (mergeLoop into ms s).1
  | [], _, _, _, h => h
  | m :: ms, s, hn, hT, h => by
    simp only [List.mem_cons, not_or] at hn
    rw [mergeLoop]
    cases he : mergeOne m into s with
    | error e => exact h
    | ok s' =>
      obtain ⟨hT', _, _, hq⟩ := mergeOne_tidy m into s s' (Ne.symm hn.1) hT he
      refine mergeLoop_wf into ms s' hn.2 hT' ⟨?_, fun k i hk => ?_⟩
      · unfold mergeOne at he
        split at he <;> cases he
        simp [h.1]
      · rw [hq] at hk
        split at hk
        · rename_i hx
          exact h.2 k m hx
        · exact h.2 k i hk

theorem mergeIndices_wf {strip : K → K} (o : PyOrd ℕ) (ids : List ℕ) {s : St K} (hT : Tidy s) (h : WF strip s) :
    WF strip (mergeIndices o ids s).1 := by
  unfold mergeIndices
  cases hm : ids.min? with
  | none => exact h
  | some into =>
    refine mergeLoop_wf into _ s ?_ hT h
    rw [PyOrd.mem]
    simp

theorem Built.wf {strip : K → K} (hs : ∀ k, strip (strip k) = strip k) {s : St K} (h : Built strip s) : WF strip s := by
  induction h with
  | empty => exact ⟨rfl, by simp⟩
  | addKey k i _ he ih => exact addKey_wf hs ih he
  | addSet it merge name i _ ht he ih => exact addSet_wf hs ih he
  | mergeIndices o ids hb ih => exact mergeIndices_wf o ids (hb.tidy hs) ih
  | @addSynonym s e n hb hn ih =>
    unfold OldSyn.addSynonym
    cases h1 : OldSyn.addKey strip e s with
    | error er => exact ih
    | ok r =>
      have hw : WF strip r.2 := addKey_wf hs ih h1
      cases h2 : newKey strip n r.1 r.2 with
      | error er => simp only [h2]; exact hw
      | ok s' =>
        simp only [h2]
        exact newKey_wf hs hw h2
  | @addSetMerging s o name syns hb ht ih =>
    unfold OldSyn.addSetMerging
    have hm := mergeIndices_wf (strip := strip) o (findIndices strip syns s) (hb.tidy hs) ih
    split
    · rename_i he
      exact addSet_wf hs ih he
    · split
      · rename_i hx
        rw [hx] at hm
        exact hm
      · rename_i hx
        rw [hx] at hm
        exact hm
    · exact ih

theorem newSet_length {strip : K → K} {it : List K} {name : Option K} {s s' : St K} {i : ℕ}
    (hw : s.names.length = s.items.length) (hw' : s'.names.length = s'.items.length)
    (e : newSet strip it name s = .ok (i, s')) : s'.items.length = s.items.length + 1 := by
  rw [← hw', C227_new_set_name it name i e]
  simp [hw]

theorem loadSets_spec {strip : K → K} (hs : ∀ k, strip (strip k) = strip k) : ∀ (es : List (Option K × List K)) (s : St K),
    Built strip s → (∀ e ∈ es, Trimmed strip e.2 ∧ ∀ k ∈ e.2, s.dict.get? k = none) →
    es.Pairwise (fun a b => ∀ k ∈ a.2, k ∉ b.2) →
    ∃ s', loadSets strip es s = .ok s' ∧ Built strip s' ∧ s'.names = s.names ++ es.map Prod.fst ∧
      ∀ q j, s'.dict.get? q = some j ↔
        s.dict.get? q = some j ∨ ∃ n e, j = s.items.length + n ∧ es[n]? = some e ∧ q ∈ e.2
  | [], s, hb, _, _ => ⟨s, rfl, hb, by simp, fun q j => by simp⟩
  | e :: es, s, hb, he, hp => by
    rw [List.pairwise_cons] at hp
    obtain ⟨ht, hn⟩ := he e (by simp)
    have hf : findIndices strip e.2 s = [] := by
      rcases findIndices_cases strip e.2 s with ⟨h, _⟩ | ⟨i, _, ⟨k, hk, hi⟩, _⟩ | ⟨_, k, hk, _, _, i, _, hi, _⟩
      · exact h
      all_goals
        unfold index at hi
        rw [ht k hk, hn k hk] at hi
        cases hi
    obtain ⟨s₁, e₁, hT₁, _, hq₁⟩ := newSet_spec strip e.2 e.1 s (hb.tidy hs) ht
    have ha : addSet strip e.2 false e.1 s = .ok (s.items.length, s₁) := by
      simp only [addSet, hf, e₁]
    have hb₁ : Built strip s₁ := .addSet _ _ _ _ hb ht ha
    have hlen := newSet_length (hb.wf hs).1 (hb₁.wf hs).1 e₁
    obtain ⟨s₂, e₂, hb₂, hnm, hq₂⟩ := loadSets_spec hs es s₁ hb₁ (fun e' he' => by
      refine ⟨(he e' (by simp [he'])).1, fun k hk => ?_⟩
      rw [hq₁, if_neg (fun hc => hp.1 e' he' k hc.1 hk)]
      exact (he e' (by simp [he'])).2 k hk) hp.2
    refine ⟨s₂, by simp only [loadSets, ha, e₂], hb₂, ?_, fun q j => ?_⟩
    · rw [hnm, C227_new_set_name _ _ _ e₁]
      simp
    · rw [hq₂, hq₁, hlen]
      constructor
      · rintro (h | ⟨n, e', hj, hx, hy⟩)
        · split at h
          · rename_i hc
            refine .inr ⟨0, e, ?_, rfl, hc.1⟩
            simpa using (Option.some.inj h).symm
          · exact .inl h
        · exact .inr ⟨n + 1, e', by omega, by simpa using hx, hy⟩
      · rintro (h | ⟨n, e', hj, hx, hy⟩)
        · left
          rw [if_neg (fun hc => by rw [h] at hc; cases hc.2), h]
        · cases n with
          | zero =>
            simp only [List.getElem?_cons_zero, Option.some.injEq] at hx
            subst hx
            left
            rw [if_pos ⟨hy, hn q hy⟩, hj]
            rfl
          | succ n => exact .inr ⟨n, e', by omega, by simpa using hx, hy⟩

theorem mem_serialize (o : PyOrd K) {s : St K} (e : Option K × List K) :
    e ∈ serialize o s ↔ ∃ (i : ℕ) (l : List K), s.items[i]? = some (some l) ∧ s.names[i]? = some e.1 ∧ e.2 = o.f l := by
  unfold serialize
  rw [List.mem_filterMap]
  constructor
  · rintro ⟨p, hp, hx⟩
    obtain ⟨i, hi⟩ := List.mem_iff_getElem?.1 hp
    rw [List.getElem?_zip_eq_some] at hi
    obtain ⟨a, b⟩ := p
    cases b with
    | none => cases hx
    | some l =>
      cases hx
      exact ⟨i, l, hi.2, hi.1, rfl⟩
  · rintro ⟨i, l, hl, hn, he⟩
    refine ⟨(e.1, some l), List.mem_iff_getElem?.2 ⟨i, List.getElem?_zip_eq_some.2 ⟨hn, hl⟩⟩, ?_⟩
    simp [← he]

/-! ### C229 -/

/-- A list that is written and read again has the same keys; keys in one set are in one set again, keys in different
sets in different ones, and a set keeps its name. -/
theorem C229_write_then_read {strip : K → K} (hs : ∀ k, strip (strip k) = strip k) {s : St K} (h : Built strip s)
    (o : PyOrd K) :
    ∃ s', fromJson strip (serialize o s) = .ok s' ∧ Built strip s' ∧
      (∀ k, index strip s' k = none ↔ index strip s k = none) ∧
      (∀ k i k' i', index strip s k = some i → index strip s k' = some i' →
        (index strip s k = index strip s k' ↔ index strip s' k = index strip s' k')) ∧
      ∀ k i j, index strip s k = some i → index strip s' k = some j → s'.names[j]? = s.names[i]? := by
  have hT := h.tidy hs
  have hw := h.wf hs
  have hmem := mem_serialize o (s := s)
  have hkey : ∀ (i : ℕ) (l : List K) (k : K), s.items[i]? = some (some l) → k ∈ l → s.dict.get? k = some i :=
    fun i l k hl hk => (hT k i).2 ⟨l, hl, hk⟩
  obtain ⟨s', e, hb, hnm, hq⟩ := loadSets_spec hs (serialize o s) {} .empty (fun e he => by
      obtain ⟨i, l, hl, _, hx⟩ := (hmem e).1 he
      refine ⟨fun k hk => ?_, fun k _ => rfl⟩
      rw [hx, PyOrd.mem] at hk
      exact hw.2 k i (hkey i l k hl hk)) (by
    unfold serialize
    rw [List.pairwise_filterMap, List.pairwise_iff_getElem]
    intro i j hi hj hij b hb c hc k hk hk'
    simp only [List.getElem_zip, Option.map_eq_some_iff] at hb hc
    obtain ⟨l, hl, rfl⟩ := hb
    obtain ⟨m, hm, rfl⟩ := hc
    rw [PyOrd.mem] at hk hk'
    simp only [List.length_zip] at hi hj
    have h1 := hkey i l k (by rw [List.getElem?_eq_getElem (by omega), hl]) hk
    have h2 := hkey j m k (by rw [List.getElem?_eq_getElem (by omega), hm]) hk'
    rw [h1] at h2
    exact absurd (Option.some.inj h2) (Nat.ne_of_lt hij))
  have hq' : ∀ q j, s'.dict.get? q = some j ↔ ∃ e, (serialize o s)[j]? = some e ∧ q ∈ e.2 := by
    intro q j
    rw [hq]
    simp
  -- the set of a key, and its place in the file
  have hplace : ∀ q i, s.dict.get? q = some i → ∃ (j : ℕ) (e : Option K × List K) (l : List K), (serialize o s)[j]? = some e ∧ s.items[i]? = some (some l) ∧
      s.names[i]? = some e.1 ∧ e.2 = o.f l ∧ q ∈ l := by
    intro q i hi
    obtain ⟨l, hl, hm⟩ := (hT q i).1 hi
    have hlt : i < s.names.length := by rw [hw.1]; exact (List.getElem?_eq_some_iff.1 hl).1
    have he := (hmem (s.names[i], o.f l)).2 ⟨i, l, hl, List.getElem?_eq_getElem hlt, rfl⟩
    obtain ⟨j, hj⟩ := List.mem_iff_getElem?.1 he
    exact ⟨j, _, l, hj, hl, List.getElem?_eq_getElem hlt, rfl, hm⟩
  have hback : ∀ (q : K) (j : ℕ) (e : Option K × List K), (serialize o s)[j]? = some e → q ∈ e.2 → ∃ i, s.dict.get? q = some i ∧ s.names[i]? = some e.1 ∧
      ∀ q' ∈ e.2, s.dict.get? q' = some i := by
    intro q j e he hqe
    obtain ⟨i, l, hl, hn, hx⟩ := (hmem e).1 (List.mem_iff_getElem?.2 ⟨j, he⟩)
    have : ∀ q' ∈ e.2, s.dict.get? q' = some i := by
      intro q' hq'
      rw [hx, PyOrd.mem] at hq'
      exact hkey i l q' hl hq'
    exact ⟨i, this q hqe, hn, this⟩
  refine ⟨s', e, hb, fun k => ?_, fun k i k' i' hk hk' => ?_, fun k i j hk hj => ?_⟩
  · unfold index
    constructor
    · intro hn
      cases hx : s.dict.get? (strip k) with
      | none => rfl
      | some i =>
        obtain ⟨j, e, l, hj, _, _, hl, hm⟩ := hplace _ i hx
        rw [(hq' _ j).2 ⟨e, hj, by rw [hl, PyOrd.mem]; exact hm⟩] at hn
        cases hn
    · intro hn
      cases hx : s'.dict.get? (strip k) with
      | none => rfl
      | some j =>
        obtain ⟨e, he, hm⟩ := (hq' _ j).1 hx
        obtain ⟨i, hi, _⟩ := hback _ j e he hm
        rw [hi] at hn
        cases hn
  · unfold index at hk hk' ⊢
    constructor
    · intro heq
      rw [hk, hk'] at heq
      cases heq
      obtain ⟨j, e, l, hj, hl, _, hx, hm⟩ := hplace _ i hk
      obtain ⟨l', hl', hm'⟩ := (hT _ i).1 hk'
      rw [hl] at hl'
      cases hl'
      rw [(hq' _ j).2 ⟨e, hj, by rw [hx, PyOrd.mem]; exact hm⟩, (hq' _ j).2 ⟨e, hj, by rw [hx, PyOrd.mem]; exact hm'⟩]
    · intro heq
      obtain ⟨j, e, l, hj, hl, _, hx, hm⟩ := hplace _ i hk
      have h1 := (hq' _ j).2 ⟨e, hj, by rw [hx, PyOrd.mem]; exact hm⟩
      rw [h1] at heq
      obtain ⟨e', he', hm'⟩ := (hq' _ j).1 heq.symm
      rw [hj] at he'
      cases he'
      obtain ⟨i₀, _, _, hall⟩ := hback _ j e hj hm'
      rw [hall _ (by rw [hx, PyOrd.mem]; exact hm), hall _ hm']
  · unfold index at hk hj
    obtain ⟨e, he, hm⟩ := (hq' _ j).1 hj
    obtain ⟨i₀, hi₀, hn, _⟩ := hback _ j e he hm
    rw [hk] at hi₀
    cases hi₀
    rw [hn, hnm]
    simp [he]

/-! ### Examples and witnesses -/

/-- a `strip` for the examples -/
def trim (s : String) : String := if s = " CO2" then "CO2" else s

theorem trim_idem (k : String) : trim (trim k) = trim k := by
  unfold trim
  split
  · decide
  · rfl

/-- two sets -/
def two : St String :=
  ⟨[some "a", some "b"], [some ["CO2", "carbon dioxide"], some ["CO", "monoxide"]],
    [("CO2", 0), ("carbon dioxide", 0), ("CO", 1), ("monoxide", 1)]⟩

theorem two_built : Built trim two := by
  have h1 : addSet trim ["CO2", "carbon dioxide"] true (some "a") {} =
      .ok (0, ⟨[some "a"], [some ["CO2", "carbon dioxide"]], [("CO2", 0), ("carbon dioxide", 0)]⟩) := by rfl
  have h2 : addSet trim ["CO", "monoxide"] true (some "b")
      ⟨[some "a"], [some ["CO2", "carbon dioxide"]], [("CO2", 0), ("carbon dioxide", 0)]⟩ = .ok (1, two) := by rfl
  exact .addSet _ _ _ _ (.addSet _ _ _ _ .empty (by unfold Trimmed; decide) h1)
    (by unfold Trimmed; decide) h2

-- C226
example : index trim two " CO2" = some 0 ∧ index trim two "CO" = some 1 ∧ index trim two "NO" = none := by
  decide +kernel

-- C227: a new key joins the set of the one that is known, and is found there
example : ((addSet trim ["CO2", "R744"] true none two).toOption.map fun r => (r.1, index trim r.2 "R744")) =
    some (0, some 0) ∧
    ((addSet trim ["CO2", "R744"] false none two).toOption.map fun r => (r.1, index trim r.2 "R744", index trim r.2 "CO2")) =
    some (2, some 2, some 0) := by
  decide +kernel

example : ((addKey trim "R744" two).toOption.map fun r => (r.1, index trim r.2 "R744")) = some (2, some 2) ∧
    ((addKey trim " CO2" two).toOption.map fun r => r.1) = some 0 := by
  decide +kernel

example : index trim two "R744" = none ∧ (addSynonym trim "CO2" "R744" two).2.toOption = some 0 ∧
    index trim (addSynonym trim "CO2" "R744" two).1 "R744" = some 0 := by
  decide +kernel

example : ((newSet trim ["R744"] (some "c") two).toOption.map fun r => r.2.names) = some [some "a", some "b", some "c"] := by
  decide +kernel

-- C227, C228: keys of two sets are refused
example : Inconsistent trim ["CO2", "CO", "carbon oxides"] two :=
  ⟨"CO2", by simp, "CO", by simp, 0, 1, by decide +kernel, by decide +kernel, by simp⟩

-- C228
example : let r := mergeIndices (.id ℕ) [1, 0] two
    r.2 = none ∧ index trim r.1 "monoxide" = some 0 ∧ index trim r.1 "CO2" = some 0 ∧ r.1.items[1]? = some none := by
  decide +kernel

example : Live two 0 ∧ Live two 1 := ⟨⟨_, rfl⟩, ⟨_, rfl⟩⟩

example : let r := addSetMerging trim (.id ℕ) "oxides" ["CO2", "CO", "carbon oxides"] two
    index trim r.1 "carbon oxides" = none ∧ index trim r.1 "CO" = some 0 := by
  decide +kernel

-- C229: a list with a set merged away
example : let s := (mergeIndices (.id ℕ) [0, 1] ((addKey trim "NO" two).toOption.getD (0, {})).2).1
    s.items.length = 3 ∧ index trim s "NO" = some 2 ∧
    ((fromJson trim (serialize (.id String) s)).toOption.map fun s' =>
      (index trim s' "CO", index trim s' "CO2", index trim s' "NO", s'.names)) =
    some (some 0, some 0, some 1, [some "a", none]) := by
  decide +kernel

/-- `new_set` looks for a key before trimming it: with spaces around it, a key that is in a set is put in a second
one, and its index then names the second. -/
theorem C226_fails_untrimmed_key_in_two_sets : ∃ s : St String, Built trim s ∧ ∃ i s', 
    addSet trim [" CO2"] false none s = .ok (i, s') ∧ index trim s "CO2" = some 0 ∧ index trim s' "CO2" = some i ∧
      i ≠ 0 ∧ (∃ l, s'.items[0]? = some (some l) ∧ "CO2" ∈ l) ∧ ∃ l, s'.items[i]? = some (some l) ∧ "CO2" ∈ l :=
  ⟨two, two_built, 2, _, rfl, by decide +kernel, by decide +kernel, by simp, ⟨_, rfl, by decide⟩, ⟨_, rfl, by decide⟩⟩

/-- `add_synonym` of a key that is in another set takes its index away and leaves it in that set. -/
theorem C226_fails_synonym_of_another_set : ∃ s : St String, Built trim s ∧ index trim s "CO" = some 1 ∧
    (addSynonym trim "CO2" "CO" s).2.toOption = some 0 ∧ index trim (addSynonym trim "CO2" "CO" s).1 "CO" = some 0 ∧
      ∃ l, (addSynonym trim "CO2" "CO" s).1.items[1]? = some (some l) ∧ "CO" ∈ l :=
  ⟨two, two_built, by decide +kernel, by decide +kernel, by decide +kernel, ⟨_, rfl, by decide⟩⟩

/-- So it is whenever the two keys are in different sets: the new key is then in both, and the list is not in order. -/
theorem C226_fails_whenever_synonym_of_another_set {strip : K → K} (hs : ∀ k, strip (strip k) = strip k) {s : St K}
    (h : Built strip s) (e n : K) (i j : ℕ) (he : index strip s e = some i) (hn : index strip s n = some j)
    (hij : i ≠ j) :
    ∃ s', addSynonym strip e n s = (s', .ok i) ∧ index strip s' n = some i ∧
      (∃ l, s'.items[i]? = some (some l) ∧ strip n ∈ l) ∧ ∃ l, s'.items[j]? = some (some l) ∧ strip n ∈ l := by
  have hT := h.tidy hs
  unfold index at he hn
  obtain ⟨l, hl, _⟩ := (hT _ _).1 he
  obtain ⟨m, hm, hnm⟩ := (hT _ _).1 hn
  have hlt := (List.getElem?_eq_some_iff.1 hl).1
  refine ⟨{ s with items := s.items.set i (some (PySet.add l (strip n))), dict := s.dict.set (strip n) i }, ?_, ?_,
    ⟨PySet.add l (strip n), ?_, by simp⟩, ⟨m, ?_, hnm⟩⟩
  · simp [addSynonym, addKey, newKey, he, hl]
  · simp [index]
  · simp [hlt]
  · rw [List.getElem?_set_ne hij]
    exact hm

example : index trim two "CO2" = some 0 ∧ index trim two "CO" = some 1 ∧ (0 : ℕ) ≠ 1 := by decide +kernel

end OldSyn
