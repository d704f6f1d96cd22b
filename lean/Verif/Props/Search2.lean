import Verif.Props.Search

/-!
C164–C166: searching an archive, finding by partial id, indexing.
-/

set_option linter.unusedSectionVars false

namespace Srch
open Arc (Kind Heap Cfg State Reach)

variable {Pat Nm : Type} [DecidableEq Nm]
variable {U E K R : Type} [DecidableEq U] [DecidableEq E] [DecidableEq K] [DecidableEq R]

theorem filterMap_some {α : Type} (l : List α) : (l.map some).filterMap id = l := by
  induction l with
  | nil => rfl
  | cons a l ih => simp [ih]

theorem values_nodup {c : Cfg U K R} {kind : E → Kind} {uuid : E → U} {st : State U E R} (h : Reach c kind uuid st) :
    (st.ents.map Prod.snd).Nodup := by
  have hI := Arc.reach_inv h
  apply List.Nodup.of_map uuid
  have h1 : (st.ents.map Prod.snd).map uuid = st.ents.map Prod.fst := by
    rw [List.map_map]
    apply List.map_congr_left
    rintro ⟨u, e⟩ hm
    exact hI.key u e (Dict.get?_eq_some_of_mem _ hI.nodup hm)
  rw [h1]
  exact hI.nodup

/-- **C164** `search(etype, **criteria)` of an archive with any history yields exactly its entities of this type that meet all criteria, each once and in
the order of their uuids -/
theorem search_exact [LinearOrder U] {c : Cfg U K R} {kind : E → Kind} {uuid : E → U} {st : State U E R} (h : Reach c kind uuid st)
    {rx : Pat → Txt → Bool} {lower : Nm → Nm} {props : E → LDict.St Nm Tag} (hd : ∀ e, LDict.Distinct lower (props e)) {up : Option (State U E R)}
    {t : Kind} {kw : List (Nm × Crit Pat)} (hok : (search rx lower props st up (some t) kw).2 = none) :
    (∀ e, e ∈ (search rx lower props st up (some t) kw).1 ↔ (kind e = t ∧ ∃ u, st.ents.get? u = some e) ∧ Meets rx (props e) kw) ∧
    (search rx lower props st up (some t) kw).1.Nodup ∧ (search rx lower props st up (some t) kw).1.Pairwise (fun a b => uuid a < uuid b) := by
  obtain ⟨l, h1, h2, h3, h4, _⟩ := Arc.count_by_type h t
  have hs : search rx lower props st up (some t) kw = searchIn rx lower props kw l := by
    cases up <;> simp only [search, h1, filterMap_some]
  rw [hs] at hok ⊢
  refine ⟨fun e => ?_, (searchIn_sublist rx lower props kw l).nodup h2, h4.sublist (searchIn_sublist rx lower props kw l)⟩
  rw [searchIn_iff hd hok, h3]

/-- **C164** without a type, all entities that meet the criteria, each once -/
theorem search_exact_all [LinearOrder U] {c : Cfg U K R} {kind : E → Kind} {uuid : E → U} {st : State U E R} (h : Reach c kind uuid st)
    {rx : Pat → Txt → Bool} {lower : Nm → Nm} {props : E → LDict.St Nm Tag} (hd : ∀ e, LDict.Distinct lower (props e)) {up : Option (State U E R)}
    {kw : List (Nm × Crit Pat)} (hok : (search rx lower props st up none kw).2 = none) :
    (∀ e, e ∈ (search rx lower props st up none kw).1 ↔ (∃ u, st.ents.get? u = some e) ∧ Meets rx (props e) kw) ∧
    (search rx lower props st up none kw).1.Nodup := by
  have hI := Arc.reach_inv h
  have hs : search rx lower props st up none kw = searchIn rx lower props kw (st.ents.map Prod.snd) := by
    cases up <;> rfl
  rw [hs] at hok ⊢
  refine ⟨fun e => ?_, (searchIn_sublist _ _ _ _ _).nodup (values_nodup h)⟩
  rw [searchIn_iff hd hok]
  have : e ∈ st.ents.map Prod.snd ↔ ∃ u, st.ents.get? u = some e := by
    rw [List.mem_map]
    constructor
    · rintro ⟨⟨u, e'⟩, h1, rfl⟩; exact ⟨u, Dict.get?_eq_some_of_mem _ hI.nodup h1⟩
    · rintro ⟨u, h1⟩; exact ⟨(u, e), Dict.mem_of_get?_eq_some _ h1, rfl⟩
  rw [this]

theorem narrowVals_ok (rx : Pat → Txt → Bool) {t : Tag} (ht : t.Plain) (ps : List Pat) (b : Bool) : ∃ b', narrowVals rx (some t) ps b = .ok b' := by
  induction ps generalizing b with
  | nil => exact ⟨b, rfl⟩
  | cons p ps ih =>
    cases b with
    | false => exact ⟨false, narrowVals_false _ _ _⟩
    | true => simp only [narrowVals, text_ok t ht]; exact ih _

theorem narrow_ok (rx : Pat → Txt → Bool) {lower : Nm → Nm} {d : LDict.St Nm Tag} (hd : LDict.Distinct lower d) {kw : List (Nm × Crit Pat)}
    (hp : ∀ kc ∈ kw, kc.2 ≠ .bad ∧ ∀ t, (kc.1, t) ∈ d → t.Plain) (b : Bool) : ∃ b', narrow rx lower d kw b = .ok b' := by
  induction kw generalizing b with
  | nil => exact ⟨b, rfl⟩
  | cons kc r ih =>
    obtain ⟨k, c⟩ := kc
    have hr := ih (fun kc h => hp kc (List.mem_cons_of_mem _ h))
    obtain ⟨h1, h2⟩ := hp (k, c) (by simp)
    simp only [narrow]
    split
    · rename_i hk
      obtain ⟨t, ht⟩ := (keys_mem d k).mp hk
      rw [getItem_mem hd ht]
      have hv := narrowVals_ok rx (h2 t ht)
      cases c with
      | bad => exact absurd rfl h1
      | one p => obtain ⟨b', h3⟩ := hv [p] b; simp only [h3]; exact hr b'
      | many ps => obtain ⟨b', h3⟩ := hv ps b; simp only [h3]; exact hr b'
    · exact ⟨false, rfl⟩

/-- **C164** a search does not raise if the criteria are texts or lists of texts and no number occurs in the properties they are about -/
theorem search_ok [LinearOrder U] {c : Cfg U K R} {kind : E → Kind} {uuid : E → U} {st : State U E R} (h : Reach c kind uuid st)
    (rx : Pat → Txt → Bool) {lower : Nm → Nm} {props : E → LDict.St Nm Tag} (hd : ∀ e, LDict.Distinct lower (props e)) (up : Option (State U E R))
    (etype : Option Kind) {kw : List (Nm × Crit Pat)} (hk : ∀ kc ∈ kw, kc.2 ≠ .bad)
    (hp : ∀ u e, st.ents.get? u = some e → ∀ kc ∈ kw, ∀ t, (kc.1, t) ∈ props e → t.Plain) : (search rx lower props st up etype kw).2 = none := by
  have hI := Arc.reach_inv h
  have key : ∀ l : List E, (∀ e ∈ l, ∃ u, st.ents.get? u = some e) → (searchIn rx lower props kw l).2 = none := by
    intro l
    induction l with
    | nil => intro _; rfl
    | cons a l ih =>
      intro hl
      obtain ⟨u, hu⟩ := hl a (by simp)
      obtain ⟨b, hb⟩ := narrow_ok rx (hd a) (kw := kw) (fun kc hkc => ⟨hk kc hkc, hp u a hu kc hkc⟩) true
      simp only [searchIn, hb]
      have := ih (fun e he => hl e (List.mem_cons_of_mem _ he))
      cases b <;> exact this
  cases etype with
  | none =>
    have hs : search rx lower props st up none kw = searchIn rx lower props kw (st.ents.map Prod.snd) := by cases up <;> rfl
    rw [hs]
    refine key _ fun e he => ?_
    obtain ⟨⟨u, e'⟩, h1, rfl⟩ := List.mem_map.mp he
    exact ⟨u, Dict.get?_eq_some_of_mem _ hI.nodup h1⟩
  | some t =>
    obtain ⟨l, h1, _, h3, _⟩ := Arc.count_by_type h t
    have hs : search rx lower props st up (some t) kw = searchIn rx lower props kw l := by
      cases up <;> simp only [search, h1, filterMap_some]
    rw [hs]
    exact key _ fun e he => ((h3 e).mp he).2

/-- a search 'upstream' finds nothing upstream: whatever is found is in the archive itself -/
theorem upstream_not_searched [LinearOrder U] {c : Cfg U K R} {kind : E → Kind} {uuid : E → U} {st : State U E R} (h : Reach c kind uuid st)
    (rx : Pat → Txt → Bool) (lower : Nm → Nm) (props : E → LDict.St Nm Tag) (up : Option (State U E R)) (etype : Option Kind)
    (kw : List (Nm × Crit Pat)) {e : E} (he : e ∈ (search rx lower props st up etype kw).1) : ∃ u, st.ents.get? u = some e := by
  have hI := Arc.reach_inv h
  cases etype with
  | none =>
    have hs : search rx lower props st up none kw = searchIn rx lower props kw (st.ents.map Prod.snd) := by cases up <;> rfl
    rw [hs] at he
    obtain ⟨⟨u, e'⟩, h1, rfl⟩ := List.mem_map.mp ((searchIn_sublist _ _ _ _ _).subset he)
    exact ⟨u, Dict.get?_eq_some_of_mem _ hI.nodup h1⟩
  | some t =>
    obtain ⟨l, h1, _, h3, _⟩ := Arc.count_by_type h t
    have hs : search rx lower props st up (some t) kw = searchIn rx lower props kw l := by
      cases up <;> simp only [search, h1, filterMap_some]
    rw [hs] at he
    exact ((h3 e).mp ((searchIn_sublist _ _ _ _ _).subset he)).2

/-- a criterion whose name is spelled in another case than the property of the entity does not match, although the entity answers to that name -/
theorem spelling_matters [LinearOrder U] {c : Cfg U K R} {kind : E → Kind} {uuid : E → U} {st : State U E R} (h : Reach c kind uuid st)
    {rx : Pat → Txt → Bool} {lower : Nm → Nm} {props : E → LDict.St Nm Tag} (hd : ∀ e, LDict.Distinct lower (props e)) {up : Option (State U E R)}
    {etype : Option Kind} {kw : List (Nm × Crit Pat)} {e : E} {k k' : Nm} {cr : Crit Pat} {t : Tag} (hk : (k, cr) ∈ kw) (ht : (k', t) ∈ props e)
    (hl : lower k = lower k') (hne : k ≠ k') :
    LDict.getItem lower (props e) k = some t ∧ ((search rx lower props st up etype kw).2 = none → e ∉ (search rx lower props st up etype kw).1) := by
  have hg : LDict.getItem lower (props e) k = some t := by
    have := getItem_mem (hd e) ht
    unfold LDict.getItem at this ⊢
    rw [hl]; exact this
  refine ⟨hg, fun hok he => ?_⟩
  have hm : Meets rx (props e) kw := by
    cases etype with
    | none => exact (((search_exact_all h hd hok).1 e).mp he).2
    | some t => exact (((search_exact h hd hok).1 e).mp he).2
  obtain ⟨t', ht', _⟩ := hm (k, cr) hk
  -- two spellings of one name
  have h1 := getItem_mem (hd e) ht'
  unfold LDict.Distinct at hd
  have hn := hd e
  have hinj := List.inj_on_of_nodup_map hn ht ht' hl.symm
  exact hne (by have := congrArg Prod.fst hinj; exact this.symm)

theorem narrow_number (rx : Pat → Txt → Bool) {lower : Nm → Nm} {d : LDict.St Nm Tag} (hd : LDict.Distinct lower d) {k : Nm} {p : Pat} {t : Tag}
    (ht : (k, t) ∈ d) (hn : ¬ t.Plain) : narrow rx lower d [(k, .one p)] true = .error .type := by
  simp only [narrow, (keys_mem d k).mpr ⟨t, ht⟩, if_true, getItem_mem hd ht, narrowVals, text_number t hn]

/-- a search by a property that is a number in some entity of the type raises TypeError -/
theorem number_raises [LinearOrder U] {c : Cfg U K R} {kind : E → Kind} {uuid : E → U} {st : State U E R} (h : Reach c kind uuid st)
    (rx : Pat → Txt → Bool) {lower : Nm → Nm} {props : E → LDict.St Nm Tag} (hd : ∀ e, LDict.Distinct lower (props e)) (up : Option (State U E R))
    {u : U} {e : E} (he : st.ents.get? u = some e) {k : Nm} {t : Tag} (ht : (k, t) ∈ props e) (hn : ¬ t.Plain) (p : Pat) :
    (search rx lower props st up (some (kind e)) [(k, .one p)]).2 = some .type := by
  obtain ⟨l, h1, -, h3, -⟩ := Arc.count_by_type h (kind e)
  have hs : search rx lower props st up (some (kind e)) [(k, .one p)] = searchIn rx lower props [(k, .one p)] l := by
    cases up <;> simp only [search, h1, filterMap_some]
  rw [hs]
  have hel : e ∈ l := (h3 e).mpr ⟨rfl, u, he⟩
  clear h1 hs h3
  induction l with
  | nil => simp at hel
  | cons a l ih =>
    simp only [searchIn]
    rcases List.mem_cons.mp hel with rfl | hel
    · rw [narrow_number rx (hd _) ht hn]
    · cases hx : narrow rx lower (props a) [(k, .one p)] true with
      | error x => cases x; rfl
      | ok b => cases b <;> exact ih hel

/-! ### C165 -/

/-- **C165** `find_partial_id(uid)` finds exactly the entities whose uuid begins with the given text, in the archive and, if asked, in its upstream
archives -/
theorem find_partial_id {E : Type} (uid : Txt) (upstream : Bool) (here : Dict Txt E) (ups : List (Dict Txt E)) (hn : ∀ a ∈ here :: ups, a.keys.Nodup)
    (e : E) : e ∈ findPartial (fun k => uid.isPrefixOf k) upstream (here :: ups) ↔
      ∃ a ∈ here :: (if upstream then ups else []), ∃ rest, a.get? (uid ++ rest) = some e := by
  have one : ∀ a : Dict Txt E, a.keys.Nodup →
      (e ∈ (a.filter fun p => uid.isPrefixOf p.1).map Prod.snd ↔ ∃ rest, a.get? (uid ++ rest) = some e) := by
    intro a ha
    simp only [List.mem_map, List.mem_filter, List.isPrefixOf_iff_prefix]
    constructor
    · rintro ⟨⟨u, e'⟩, ⟨h1, rest, h2⟩, rfl⟩
      exact ⟨rest, by rw [h2]; exact Dict.get?_eq_some_of_mem _ ha h1⟩
    · rintro ⟨rest, h1⟩
      exact ⟨(uid ++ rest, e), ⟨Dict.mem_of_get?_eq_some _ h1, rest, rfl⟩, rfl⟩
  have all : ∀ as : List (Dict Txt E), (∀ a ∈ as, a.keys.Nodup) →
      (e ∈ findPartial (fun k => uid.isPrefixOf k) true as ↔ ∃ a ∈ as, ∃ rest, a.get? (uid ++ rest) = some e) := by
    intro as
    induction as with
    | nil => simp [findPartial]
    | cons a as ih =>
      intro hn
      simp only [findPartial, if_true, List.mem_append, List.exists_mem_cons_iff]
      rw [one a (hn a (by simp)), ih fun a h => hn a (List.mem_cons_of_mem _ h)]
  cases upstream with
  | true => simpa using all (here :: ups) hn
  | false =>
    simp only [findPartial, Bool.false_eq_true, if_false, List.append_nil, List.exists_mem_cons_iff, List.not_mem_nil, false_and, exists_false, or_false]
    exact one here (hn here (by simp))

/-! ### C166 -/

theorem add_ok {c : Cfg U K R} {H : Heap U E K} {e : E} {st : State U E R} (hk : H.kind e ∈ c.kinds) (hn : st.ents.get? (H.uuid e) = none)
    (hv : H.valid e = true) (ho : st.origin.get? e ≠ none) : Arc.add c H e st = .ok () (Arc.stored H e st.origin st) := by
  have hh : st.ents.has (H.uuid e) = false := by
    rw [Bool.eq_false_iff]
    intro hc
    obtain ⟨w, hw⟩ := (Dict.mem_keys_iff _ _).mp ((Dict.has_iff _ _).mp hc)
    rw [hn] at hw; cases hw
  unfold Arc.add Arc.addKey
  obtain ⟨r, hr⟩ := Option.ne_none_iff_exists'.mp ho
  simp [hk, hh, hv, hr, Arc.stored]

theorem addAll {c : Cfg U K R} {H : Heap U E K} (l : List E) (hl : (l.map H.uuid).Nodup) (hk : ∀ e ∈ l, H.kind e ∈ c.kinds)
    (hv : ∀ e ∈ l, H.valid e = true) {st : State U E R} (ho : ∀ e ∈ l, st.origin.get? e ≠ none) (hn : ∀ e ∈ l, st.ents.get? (H.uuid e) = none) :
    ∃ st', Arc.forEach (Arc.add c H) l st = .ok () st' ∧ st'.origin = st.origin ∧
      ∀ u e, st'.ents.get? u = some e ↔ st.ents.get? u = some e ∨ (e ∈ l ∧ H.uuid e = u) := by
  induction l generalizing st with
  | nil => exact ⟨st, rfl, rfl, by simp⟩
  | cons a l ih =>
    simp only [List.map_cons, List.nodup_cons] at hl
    have ha := add_ok (hk a (by simp)) (hn a (by simp)) (hv a (by simp)) (ho a (by simp))
    obtain ⟨st', h1, h2, h3⟩ := ih hl.2 (fun e h => hk e (List.mem_cons_of_mem _ h)) (fun e h => hv e (List.mem_cons_of_mem _ h))
      (st := Arc.stored H a st.origin st) (fun e h => ho e (List.mem_cons_of_mem _ h)) (by
        intro e he
        simp only [Arc.stored]
        rw [Dict.get?_set_ne _ _ (by intro hc; exact hl.1 (hc ▸ List.mem_map_of_mem he))]
        exact hn e (List.mem_cons_of_mem _ he))
    refine ⟨st', ?_, h2, ?_⟩
    · simp only [Arc.forEach, ha, Out.bind, h1]
    · intro u e
      rw [h3 u e]
      simp only [Arc.stored, Dict.get?_set, List.mem_cons]
      split
      · rename_i hu
        subst hu
        constructor
        · rintro (h | ⟨h, h'⟩)
          · cases h; exact Or.inr ⟨Or.inl rfl, rfl⟩
          · exact Or.inr ⟨Or.inr h, h'⟩
        · rintro (h | ⟨rfl | h, h'⟩)
          · rw [hn a (by simp)] at h; cases h
          · exact Or.inl rfl
          · exact Or.inr ⟨h, h'⟩
      · rename_i hu
        constructor
        · rintro (h | ⟨h, h'⟩)
          · exact Or.inl h
          · exact Or.inr ⟨Or.inr h, h'⟩
        · rintro (h | ⟨rfl | h, h'⟩)
          · exact Or.inl h
          · exact absurd h' hu
          · exact Or.inr ⟨h, h'⟩

/-- **C166** the index of an archive with any history, all whose entities are valid, is made and holds exactly the entities of the archive that are of the
types of an index, under the same uuids; their origins are as they were; so `entities_by_type` and `search` answer the same for both -/
theorem index_exact [LinearOrder U] {c c' : Cfg U K R} {H : Heap U E K} {st : State U E R} (h : Reach c' H.kind H.uuid st) (hc : c.kinds.Nodup)
    (hv : ∀ u e, st.ents.get? u = some e → H.valid e = true) :
    ∃ ix, indexEntities c H st = .ok () ix ∧ ix.origin = st.origin ∧
      (∀ u e, ix.ents.get? u = some e ↔ st.ents.get? u = some e ∧ H.kind e ∈ c.kinds) ∧
      ∀ t ∈ c.kinds, Arc.entitiesByType ix t = Arc.entitiesByType st t := by
  have hI := Arc.reach_inv h
  have hmem : ∀ t e, e ∈ (Arc.entitiesByType st t).filterMap id ↔ H.kind e = t ∧ ∃ u, st.ents.get? u = some e := by
    intro t e
    obtain ⟨l, h1, _, h3, _⟩ := Arc.count_by_type h t
    rw [h1, filterMap_some, h3]
  have hL : ∀ e, e ∈ (c.kinds.flatMap fun k => (Arc.entitiesByType st k).filterMap id) ↔ H.kind e ∈ c.kinds ∧ ∃ u, st.ents.get? u = some e := by
    intro e
    simp only [List.mem_flatMap, hmem]
    constructor
    · rintro ⟨k, h1, rfl, h2⟩; exact ⟨h1, h2⟩
    · rintro ⟨h1, h2⟩; exact ⟨_, h1, rfl, h2⟩
  have hnd : (c.kinds.flatMap fun k => (Arc.entitiesByType st k).filterMap id).Nodup := by
    rw [List.nodup_flatMap]
    refine ⟨fun k _ => ?_, ?_⟩
    · obtain ⟨l, h1, h2, _⟩ := Arc.count_by_type h k
      rw [h1, filterMap_some]; exact h2
    · refine hc.imp fun {a b} hab => ?_
      simp only [Function.onFun]
      intro e he he'
      exact hab (((hmem a e).mp he).1.symm.trans ((hmem b e).mp he').1)
  have hndu : ((c.kinds.flatMap fun k => (Arc.entitiesByType st k).filterMap id).map H.uuid).Nodup := by
    refine List.Nodup.map_on ?_ hnd
    intro a ha b hb hab
    obtain ⟨_, u, hu⟩ := (hL a).mp ha
    obtain ⟨_, v, hv'⟩ := (hL b).mp hb
    have h1 := hI.key _ _ hu
    have h2 := hI.key _ _ hv'
    rw [← h1] at hu; rw [← h2, ← hab] at hv'
    rw [hu] at hv'; cases hv'; rfl
  obtain ⟨ix, h1, h2, h3⟩ := addAll (c := c) (H := H) _ hndu (fun e he => ((hL e).mp he).1)
    (fun e he => by obtain ⟨_, u, hu⟩ := (hL e).mp he; exact hv u e hu) (st := ({ origin := st.origin } : State U E R))
    (fun e he => by obtain ⟨_, u, hu⟩ := (hL e).mp he; exact hI.origin u e hu) (fun e _ => rfl)
  have hix : ∀ u e, ix.ents.get? u = some e ↔ st.ents.get? u = some e ∧ H.kind e ∈ c.kinds := by
    intro u e
    rw [h3 u e, hL]
    simp only [Dict.get?_nil, reduceCtorEq, false_or]
    constructor
    · rintro ⟨⟨h4, v, h5⟩, rfl⟩
      rw [hI.key _ _ h5]; exact ⟨h5, h4⟩
    · rintro ⟨h4, h5⟩
      exact ⟨⟨h5, u, h4⟩, hI.key _ _ h4⟩
  refine ⟨ix, h1, h2, hix, ?_⟩
  intro t ht
  have hr : Reach c H.kind H.uuid ix := by
    have := Reach.call H rfl rfl (.load (c.kinds.flatMap fun k => (Arc.entitiesByType st k).filterMap id)) (.new (c := c) (kind := H.kind) (uuid := H.uuid)
      st.origin)
    simp only [Arc.step] at this
    rw [h1] at this
    exact this
  obtain ⟨l, g1, g2, g3, g4, _⟩ := Arc.count_by_type h t
  obtain ⟨l', g1', g2', g3', g4', _⟩ := Arc.count_by_type hr t
  rw [g1, g1']
  have hp : l'.Perm l := by
    rw [List.perm_ext_iff_of_nodup g2' g2]
    intro e
    rw [g3, g3']
    constructor
    · rintro ⟨a, u, b⟩; exact ⟨a, u, ((hix u e).mp b).1⟩
    · rintro ⟨a, u, b⟩; exact ⟨a, u, (hix u e).mpr ⟨b, a ▸ ht⟩⟩
  have : l' = l := by
    refine List.Perm.eq_of_pairwise ?_ g4' g4 hp
    intro a b _ _ h1 h2
    exact absurd h1 (lt_asymm h2)
  rw [this]

end Srch
