import Verif.Model.Archive

/-!
C20: in the table of names of an archive a data source has one semantic reference.
-/

namespace ArcNames

variable {R S : Type} [DecidableEq R] [DecidableEq S] {valid : R → Bool} {localRef : S → R}

/-- The tables that can occur: after the construction of an archive and any calls, whether they returned or raised. -/
inductive Reach (valid : R → Bool) (localRef : S → R) : State R S → Prop
  | new (ref : R) (source : Option S) (h : valid ref = true) :
      Reach valid localRef (addName valid localRef ref source false { names := [], source := source }).state
  | call (op : Op R S) {st : State R S} (h : Reach valid localRef st) :
      Reach valid localRef (step valid localRef op st).2

/-! ### lemmas -/

theorem at_set (st : State R S) (k k' : R) (l : List (Option S)) :
    State.at { st with names := st.names.set k l } k' = if k = k' then l else st.at k' := by
  simp only [State.at, Dict.get?_set]
  split <;> rfl

structure Inv (st : State R S) : Prop where
  nodup : st.names.keys.Nodup
  uniq : ∀ s k k', some s ∈ st.at k → some s ∈ st.at k' → k = k'
  home : st.source = none → ∃ k, none ∈ st.at k

theorem listed_key {st : State R S} {k : R} {x : Option S} (h : x ∈ st.at k) : k ∈ st.names.keys := by
  rw [Dict.mem_keys_iff]
  unfold State.at at h
  cases hg : st.names.get? k with
  | none => rw [hg] at h; simp at h
  | some l => simp

theorem refOf_ok {st : State R S} (h : st.source = none → ∃ k, none ∈ st.at k) : ∃ r, refOf localRef st = .ok r := by
  unfold refOf
  cases hf : st.names.keys.find? fun k => decide (st.source ∈ st.at k) with
  | some k => exact ⟨k, rfl⟩
  | none =>
    cases hs : st.source with
    | some s => exact ⟨_, rfl⟩
    | none =>
      obtain ⟨k, hk⟩ := h hs
      rw [List.find?_eq_none] at hf
      have := hf k (listed_key hk)
      rw [hs] at this
      simp [hk] at this

/-- the end of a registration lists the source under ref, and changes nothing else in the table -/
theorem finish_spec (ref : R) (source : Option S) (rewrite : Bool) (st : State R S)
    (hn : st.names.keys.Nodup)
    (hh : st.source = none → source = none ∨ ∃ k, none ∈ st.at k) :
    ∃ st', finish localRef ref source rewrite st = .ok () st' ∧ st'.names.keys.Nodup ∧
      (∀ k x, x ∈ st'.at k ↔ x ∈ st.at k ∨ (k = ref ∧ x = source)) ∧ (st'.source = none → st.source = none) := by
  have hat : ∀ k x, x ∈ State.at { st with names := st.names.set ref (PySet.add (st.at ref) source) } k ↔
      x ∈ st.at k ∨ (k = ref ∧ x = source) := by
    intro k x
    rw [at_set]
    split
    · rename_i e; subst e; simp
    · rename_i e; simp [Ne.symm e]
  have hk := Dict.nodup_keys_set st.names ref (PySet.add (st.at ref) source) hn
  obtain ⟨r, hr⟩ := refOf_ok (localRef := localRef)
    (st := { st with names := st.names.set ref (PySet.add (st.at ref) source) }) (by
      intro hs
      rcases hh hs with h | ⟨k, h⟩
      · exact ⟨ref, by rw [hat]; exact .inr ⟨rfl, h.symm⟩⟩
      · exact ⟨k, by rw [hat]; exact .inl h⟩)
  unfold finish
  simp only [hr]
  by_cases hc : ref = r ∧ st.source = none ∧ rewrite = true
  · rw [if_pos hc]; exact ⟨_, rfl, hk, hat, fun _ => hc.2.1⟩
  · rw [if_neg hc]; exact ⟨_, rfl, hk, hat, fun h => h⟩

/-- a source that is not listed -/
theorem scan_absent (ref : R) (s : S) (rewrite : Bool) (ks : List R) (st : State R S)
    (h : ∀ k, some s ∉ st.at k) : scan localRef ref s rewrite ks st = finish localRef ref (some s) rewrite st := by
  induction ks with
  | nil => rfl
  | cons k ks ih => unfold scan; rw [if_neg (h k), ih]

/-- a source that is listed under k -/
theorem scan_present (ref : R) (s : S) (rewrite : Bool) (ks : List R) (st : State R S) (hI : Inv st) (k : R)
    (hk : some s ∈ st.at k) (hks : k ∈ ks) :
    scan localRef ref s rewrite ks st =
      if st.source = some s ∧ k = localRef s then .ok () { st with names := (st.names.del k).set ref (st.at k) }
      else if k = ref then .ok () st
      else if rewrite then
        finish localRef ref (some s) rewrite
          { st with names := st.names.set k ((st.at k).filter fun x => decide (x ≠ some s)) }
      else .err .sourceAlreadyKnown st := by
  induction ks with
  | nil => simp at hks
  | cons a ks ih =>
    unfold scan
    by_cases ha : some s ∈ st.at a
    · have : a = k := hI.uniq s a k ha hk
      subst this
      rw [if_pos ha]
      have hf := scan_absent (localRef := localRef) ref s rewrite ks
        { st with names := st.names.set a ((st.at a).filter fun x => decide (x ≠ some s)) } (by
          intro k'
          rw [at_set]
          split
          · simp
          · rename_i e
            intro h'
            exact e (hI.uniq s a k' hk h'))
      rw [hf]
    · rw [if_neg ha]
      refine ih ?_
      rcases List.mem_cons.1 hks with rfl | h
      · exact absurd hk ha
      · exact h

theorem inv_add_name (ref : R) (source : Option S) (rewrite : Bool) (st : State R S) (hn : st.names.keys.Nodup)
    (hu : ∀ s k k', some s ∈ st.at k → some s ∈ st.at k' → k = k')
    (hh : st.source = none → (∃ k, none ∈ st.at k)) :
    Inv (addName valid localRef ref source rewrite st).state := by
  unfold addName
  by_cases hv : valid ref = true
  swap
  · simp only [hv]; exact ⟨hn, hu, hh⟩
  simp only [hv, Bool.not_true, Bool.false_eq_true, ↓reduceIte]
  cases source with
  | none =>
    obtain ⟨st', he, hk, hat, hs⟩ := finish_spec (localRef := localRef) ref none rewrite st hn fun _ => .inl rfl
    simp only [he, Out.state]
    refine ⟨hk, ?_, ?_⟩
    · intro s k k' h h'
      rw [hat] at h h'
      simp at h h'
      exact hu s k k' h h'
    · intro _
      exact ⟨ref, by rw [hat]; exact .inr ⟨rfl, rfl⟩⟩
  | some s =>
    by_cases hl : ∃ k, some s ∈ st.at k
    · obtain ⟨k, hk⟩ := hl
      have hI : Inv st := ⟨hn, hu, hh⟩
      simp only
      rw [scan_present ref s rewrite _ st hI k hk (listed_key hk)]
      split
      · rename_i h
        refine ⟨Dict.nodup_keys_set _ _ _ (Dict.nodup_keys_del _ _ hn), ?_, ?_⟩
        · intro t a b ha hb
          simp only [Out.state, State.at, Dict.get?_set, Dict.get?_del _ hn] at ha hb
          by_cases e1 : ref = a
          · by_cases e2 : ref = b
            · rw [← e1, ← e2]
            · exfalso
              rw [if_pos e1] at ha
              rw [if_neg e2] at hb
              by_cases e3 : k = b
              · rw [if_pos e3] at hb; simp at hb
              · rw [if_neg e3] at hb
                exact e3 (hu t k b ha hb)
          · rw [if_neg e1] at ha
            by_cases e3 : k = a
            · rw [if_pos e3] at ha; simp at ha
            · rw [if_neg e3] at ha
              by_cases e2 : ref = b
              · rw [if_pos e2] at hb
                exact absurd (hu t k a hb ha) e3
              · rw [if_neg e2] at hb
                by_cases e4 : k = b
                · rw [if_pos e4] at hb; simp at hb
                · rw [if_neg e4] at hb
                  exact hu t a b ha hb
        · intro hs
          have : st.source = none := hs
          rw [h.1] at this; simp at this
      · split
        · exact hI
        · split
          · rename_i hkr hrw
            obtain ⟨st', he, hk', hat, hs⟩ := finish_spec (localRef := localRef) ref (some s) rewrite
              { st with names := st.names.set k ((st.at k).filter fun x => decide (x ≠ some s)) }
              (Dict.nodup_keys_set _ _ _ hn) (by
                intro hs
                obtain ⟨k', h'⟩ := hh hs
                refine .inr ⟨k', ?_⟩
                rw [at_set]
                split
                · rename_i e; subst e; simpa using h'
                · exact h')
            simp only [he, Out.state]
            have hat' : ∀ a x, x ∈ st'.at a ↔ (x ∈ st.at a ∧ (a = k → x ≠ some s)) ∨ (a = ref ∧ x = some s) := by
              intro a x
              rw [hat, at_set]
              by_cases e : k = a
              · subst e; simp
              · rw [if_neg e]; simp [Ne.symm e]
            refine ⟨hk', ?_, ?_⟩
            · intro t a b ha hb
              rw [hat'] at ha hb
              by_cases hts : t = s
              · subst hts
                have key : ∀ x, (some t ∈ st.at x ∧ (x = k → some t ≠ some t)) → False := by
                  rintro x ⟨h1, h2⟩
                  exact h2 (hu t x k h1 hk) rfl
                rcases ha with ha | ha
                · exact absurd ha (key a)
                rcases hb with hb | hb
                · exact absurd hb (key b)
                rw [ha.1, hb.1]
              · simp [hts] at ha hb
                exact hu t a b ha hb
            · intro h
              obtain ⟨k', h'⟩ := hh (hs h)
              exact ⟨k', by rw [hat']; exact .inl ⟨h', fun _ => by simp⟩⟩
          · exact hI
    · simp only [not_exists] at hl
      simp only
      rw [scan_absent ref s rewrite _ st hl]
      obtain ⟨st', he, hk', hat, hs⟩ := finish_spec (localRef := localRef) ref (some s) rewrite st hn
        fun h => .inr (hh h)
      simp only [he, Out.state]
      refine ⟨hk', ?_, ?_⟩
      · intro t a b ha hb
        rw [hat] at ha hb
        by_cases hts : t = s
        · subst hts
          rcases ha with ha | ha
          · exact absurd ha (hl a)
          rcases hb with hb | hb
          · exact absurd hb (hl b)
          rw [ha.1, hb.1]
        · simp [hts] at ha hb
          exact hu t a b ha hb
      · intro h
        obtain ⟨k', h'⟩ := hh (hs h)
        exact ⟨k', by rw [hat]; exact .inl h'⟩

theorem reach_inv {st : State R S} (h : Reach valid localRef st) : Inv st := by
  induction h with
  | new ref source hv =>
    cases source with
    | some s =>
      exact inv_add_name ref (some s) false _ (by simp [Dict.keys]) (by simp [State.at, Dict.get?]) (by simp)
    | none =>
      unfold addName
      simp only [hv, Bool.not_true, Bool.false_eq_true, ↓reduceIte]
      obtain ⟨st', he, hk, hat, hs⟩ := finish_spec (S := S) (localRef := localRef) ref none false { names := [], source := none }
        (by simp [Dict.keys]) fun _ => .inl rfl
      simp only [he, Out.state]
      refine ⟨hk, ?_, fun _ => ⟨ref, by rw [hat]; exact .inr ⟨rfl, rfl⟩⟩⟩
      intro s k k' h h'
      rw [hat] at h
      simp [State.at, Dict.get?] at h
  | @call op _st _ ih =>
    cases op with
    | addName r s w => exact inv_add_name r s w _ ih.nodup ih.uniq ih.home
    | setSource r s => exact inv_add_name r (some s) false _ ih.nodup ih.uniq (by simp)
    | getSources n =>
      simp only [step, getSources]
      split
      · exact ih
      · rename_i hn
        have hat : ∀ k, State.at { _st with names := _st.names.set n [] } k = _st.at k := by
          intro k
          rw [at_set]
          split
          · rename_i e; subst e
            simp only [Dict.has_iff, Dict.mem_keys_iff] at hn
            unfold State.at
            cases hg : _st.names.get? n with
            | none => rfl
            | some l => simp [hg] at hn
          · rfl
        refine ⟨Dict.nodup_keys_set _ _ _ ih.nodup, ?_, ?_⟩
        · intro s k k'; rw [hat, hat]; exact ih.uniq s k k'
        · intro h; obtain ⟨k, hk⟩ := ih.home h; exact ⟨k, by rw [hat]; exact hk⟩

/-! ### C20 -/

/-- C20: at any time a source is listed under at most one reference. -/
theorem one_reference {st : State R S} (h : Reach valid localRef st) {s : S} {k k' : R}
    (hk : some s ∈ st.at k) (hk' : some s ∈ st.at k') : k = k' := (reach_inv h).uniq s k k' hk hk'

/-- C20: without rewrite, registering a listed source under a second reference raises and changes nothing, unless the
source is the archive's own and listed under the default local reference. -/
theorem second_reference_refused {st : State R S} (h : Reach valid localRef st) {s : S} {k ref : R}
    (hv : valid ref = true) (hk : some s ∈ st.at k) (hne : k ≠ ref) (hown : ¬ (st.source = some s ∧ k = localRef s)) :
    addName valid localRef ref (some s) false st = .err .sourceAlreadyKnown st := by
  unfold addName
  simp only [hv, Bool.not_true, Bool.false_eq_true, ↓reduceIte]
  rw [scan_present ref s false _ st (reach_inv h) k hk (listed_key hk), if_neg hown, if_neg hne]
  rfl

/-- C20: with rewrite, the source is moved to the new reference, and all other sources stay where they were. -/
theorem rewrite_moves {st : State R S} (h : Reach valid localRef st) {s : S} {k ref : R}
    (hv : valid ref = true) (hk : some s ∈ st.at k) (hne : k ≠ ref) (hown : ¬ (st.source = some s ∧ k = localRef s)) :
    ∃ st', addName valid localRef ref (some s) true st = .ok () st' ∧ (∀ k', some s ∈ st'.at k' ↔ k' = ref) ∧
      ∀ x k', x ≠ some s → (x ∈ st'.at k' ↔ x ∈ st.at k') := by
  have hI := reach_inv h
  unfold addName
  simp only [hv, Bool.not_true, Bool.false_eq_true, ↓reduceIte]
  rw [scan_present ref s true _ st hI k hk (listed_key hk), if_neg hown, if_neg hne]
  obtain ⟨st', he, hk', hat, hs⟩ := finish_spec (localRef := localRef) ref (some s) true
    { st with names := st.names.set k ((st.at k).filter fun x => decide (x ≠ some s)) }
    (Dict.nodup_keys_set _ _ _ hI.nodup) (by
      intro hs
      obtain ⟨k', h'⟩ := hI.home hs
      refine .inr ⟨k', ?_⟩
      rw [at_set]
      split
      · rename_i e; subst e; simpa using h'
      · exact h')
  refine ⟨st', he, ?_, ?_⟩
  · intro a
    rw [hat, at_set]
    by_cases e : k = a
    · subst e; simp
    · rw [if_neg e]
      constructor
      · rintro (h1 | h1)
        · exact absurd (hI.uniq s k a hk h1) e
        · exact h1.1
      · intro h1; exact .inr ⟨h1, rfl⟩
  · intro x a hx
    rw [hat, at_set]
    by_cases e : k = a
    · subst e; simp [hx]
    · rw [if_neg e]; simp [hx]

/-- a source listed under the reference already: nothing happens -/
theorem same_reference {st : State R S} (h : Reach valid localRef st) {s : S} {ref : R} (rewrite : Bool)
    (hv : valid ref = true) (hk : some s ∈ st.at ref) (hown : ¬ (st.source = some s ∧ ref = localRef s)) :
    addName valid localRef ref (some s) rewrite st = .ok () st := by
  unfold addName
  simp only [hv, Bool.not_true, Bool.false_eq_true, ↓reduceIte]
  rw [scan_present ref s rewrite _ st (reach_inv h) ref hk (listed_key hk), if_neg hown, if_pos rfl]

/-- a source that is not listed gets listed under the reference -/
theorem new_source {st : State R S} (h : Reach valid localRef st) {s : S} {ref : R} (rewrite : Bool)
    (hv : valid ref = true) (hn : ∀ k, some s ∉ st.at k) :
    ∃ st', addName valid localRef ref (some s) rewrite st = .ok () st' ∧
      ∀ x k, x ∈ st'.at k ↔ x ∈ st.at k ∨ (k = ref ∧ x = some s) := by
  have hI := reach_inv h
  obtain ⟨st', he, _, hat, _⟩ := finish_spec (localRef := localRef) ref (some s) rewrite st hI.nodup
    fun h => .inr (hI.home h)
  refine ⟨st', ?_, fun x k => hat k x⟩
  unfold addName
  simp only [hv, Bool.not_true, Bool.false_eq_true, ↓reduceIte]
  rw [scan_absent ref s rewrite _ st hn, he]

/-- The archive's own source, listed under the default local reference, moves to any new reference, with all sources
listed there; what the new reference had is dropped. -/
theorem own_source_moves {st : State R S} (h : Reach valid localRef st) {s : S} {ref : R} (rewrite : Bool)
    (hv : valid ref = true) (hs : st.source = some s) (hk : some s ∈ st.at (localRef s)) :
    ∃ st', addName valid localRef ref (some s) rewrite st = .ok () st' ∧
      ∀ k, st'.at k = if k = ref then st.at (localRef s) else if k = localRef s then [] else st.at k := by
  have hI := reach_inv h
  refine ⟨{ st with names := (st.names.del (localRef s)).set ref (st.at (localRef s)) }, ?_, ?_⟩
  · unfold addName
    simp only [hv, Bool.not_true, Bool.false_eq_true, ↓reduceIte]
    rw [scan_present ref s rewrite _ st hI _ hk (listed_key hk), if_pos ⟨hs, rfl⟩]
  · intro k
    simp only [State.at, Dict.get?_set, Dict.get?_del _ hI.nodup]
    by_cases e : k = ref
    · subst e; simp
    · rw [if_neg (Ne.symm e), if_neg e]
      by_cases e' : k = localRef s
      · subst e'; simp
      · rw [if_neg (Ne.symm e'), if_neg e']

/-- an invalid reference is refused -/
theorem invalid_reference (ref : R) (source : Option S) (rewrite : Bool) (st : State R S) (hv : valid ref = false) :
    addName valid localRef ref source rewrite st = .err .invalidReference st := by
  unfold addName; simp [hv]

/-- C20, `names`: a listed source is mapped to its one reference, any other to what upstream says. -/
theorem names_of_source {st : State R S} (h : Reach valid localRef st) (upstream : Dict (Option S) R) (s : S) :
    (∀ k, some s ∈ st.at k → (namesMap upstream st).get? (some s) = some k) ∧
    ((∀ k, some s ∉ st.at k) → (namesMap upstream st).get? (some s) = upstream.get? (some s)) := by
  have hI := reach_inv h
  have inner : ∀ (l : List (Option S)) (k : R) (d : Dict (Option S) R),
      (l.foldl (fun d v => Dict.set d v k) d).get? (some s) = if some s ∈ l then some k else d.get? (some s) := by
    intro l k
    induction l with
    | nil => intro d; simp
    | cons a l ih =>
      intro d
      rw [List.foldl_cons, ih, Dict.get?_set]
      by_cases h1 : some s ∈ l
      · simp [h1]
      · by_cases h2 : a = some s
        · simp [h2]
        · simp [h1, h2, Ne.symm h2]
  have hmem : ∀ kv ∈ st.names, kv.2 = st.at kv.1 := by
    intro kv hkv
    unfold State.at
    rw [Dict.get?_eq_some_of_mem _ hI.nodup hkv]; rfl
  have outer : ∀ (l : List (R × List (Option S))) (d : Dict (Option S) R), (∀ kv ∈ l, kv.2 = st.at kv.1) →
      (∀ k, some s ∈ st.at k →
        (l.foldl (fun d kv => kv.2.foldl (fun d v => Dict.set d v kv.1) d) d).get? (some s) =
          if k ∈ l.map Prod.fst then some k else d.get? (some s)) ∧
      ((∀ k, some s ∉ st.at k) →
        (l.foldl (fun d kv => kv.2.foldl (fun d v => Dict.set d v kv.1) d) d).get? (some s) = d.get? (some s)) := by
    intro l
    induction l with
    | nil => intro d _; simp
    | cons kv l ih =>
      intro d hl
      have hkv := hl kv (by simp)
      obtain ⟨ih1, ih2⟩ := ih (kv.2.foldl (fun d v => Dict.set d v kv.1) d) fun x hx => hl x (by simp [hx])
      refine ⟨?_, ?_⟩
      · intro k hk
        rw [List.foldl_cons, ih1 k hk, inner, hkv]
        by_cases h1 : k ∈ l.map Prod.fst
        · rw [if_pos h1, if_pos (by simp only [List.map_cons, List.mem_cons]; exact .inr h1)]
        · rw [if_neg h1]
          by_cases h2 : some s ∈ st.at kv.1
          · have := hI.uniq s _ _ h2 hk
            rw [if_pos h2, this, if_pos (by simp [this])]
          · rw [if_neg h2, if_neg]
            simp only [List.map_cons, List.mem_cons, not_or]
            refine ⟨?_, h1⟩
            rintro rfl; exact h2 hk
      · intro hn
        rw [List.foldl_cons, ih2 hn, inner, hkv, if_neg (hn _)]
  obtain ⟨o1, o2⟩ := outer st.names upstream hmem
  refine ⟨?_, o2⟩
  intro k hk
  unfold namesMap
  rw [o1 k hk, if_pos]
  exact listed_key hk

/-- What C20 does not promise: moving the archive's own source to a reference that has other sources drops these. -/
theorem own_source_drops_others : ∃ (st st' : State ℕ ℕ), Reach (fun _ => true) (fun s => 100 + s) st ∧
    some 2 ∈ st.at 7 ∧ addName (fun _ => true) (fun s => 100 + s) 7 (some 1) false st = .ok () st' ∧
    ∀ k, some 2 ∉ st'.at k := by
  refine ⟨_, _, .call (.addName 7 (some 2) false) (.new 101 (some 1) rfl), by decide +kernel, rfl, ?_⟩
  intro k
  have : (addName (fun _ => true) (fun s => 100 + s) 7 (some 1) false (step (fun _ => true) (fun s => 100 + s)
      (.addName 7 (some 2) false) (addName (fun _ => true) (fun s => 100 + s) 101 (some 1) false
        { names := [], source := some 1 }).state).2).state = { names := [(7, [some 1])], source := some 1 } := by
    decide +kernel
  intro hc
  have hc' : some 2 ∈ State.at ({ names := [(7, [some 1])], source := some 1 } : State ℕ ℕ) k := by
    rw [← this]; exact hc
  simp only [State.at, Dict.get?] at hc'
  split at hc' <;> simp at hc'

/-! non-trivial cases of the hypotheses -/

/-- own source 1 under 5, another source 2 under 6, and one more under 6 -/
def exSt : State ℕ ℕ := { names := [(5, [some 1]), (6, [some 2, some 3])], source := some 1 }

theorem exSt_reach : Reach (fun _ => true) (fun s => 100 + s) exSt :=
  .call (.addName 6 (some 3) false) (.call (.addName 6 (some 2) false) (.new 5 (some 1) rfl))

example : addName (fun _ => true) (fun s => 100 + s) 5 (some 2) false exSt = .err .sourceAlreadyKnown exSt :=
  second_reference_refused exSt_reach (k := 6) rfl (by decide) (by decide) (by decide)
example : addName (fun _ => true) (fun s => 100 + s) 5 (some 2) true exSt =
    .ok () { names := [(5, [some 1, some 2]), (6, [some 3])], source := some 1 } := rfl
example : (namesMap [(some 9, 0), (some 2, 0)] exSt).get? (some 2) = some 6 :=
  (names_of_source exSt_reach _ 2).1 6 (by decide)

end ArcNames
