import Verif.Props.Foreground

/-!
C55: adding entities to a foreground; C44 and C55 over histories; witnesses.
-/

set_option linter.unusedSectionVars false

namespace Fg

/-- the form in which an entity is stored: a local one as it is, one of another origin as a reference -/
def storedAs (env : Env) (x : Ent) : Ent :=
  match x.origin with
  | none => { x with origin := some env.ref }
  | some orig => if x.isEnt ∧ orig ≠ env.ref then { x with isEnt := false, ext := some x.ref } else x

/-- it is stored as the same object -/
def Local (env : Env) (x : Ent) : Prop := x.isEnt = false ∨ x.origin = none ∨ x.origin = some env.ref

theorem getitem_stored (env : Env) (o : PyOrd Str) (st : St) (hi : Inv st) (key : Str) (e : ℕ)
    (h : getitem env o st key = some e) : ∃ x, st.obj e = some x ∧ st.ents.get? x.link = some e := by
  unfold getitem at h
  cases hk : keyToId env o st key with
  | none => rw [hk] at h; simp at h
  | some l =>
    rw [hk] at h
    dsimp only at h
    obtain ⟨x, h1, h2, -⟩ := hi.link l e h
    exact ⟨x, h1, by rw [h2]; exact h⟩

/-! ### changes of the heap -/

/-- changing an object that is not stored -/
theorem inv_heap_unstored (st : St) (hi : Inv st) (heap' : List Ent)
    (h : ∀ l e, st.ents.get? l = some e → heap'[e]? = st.obj e) : Inv { st with heap := heap' } := by
  have ho : ∀ l e, st.ents.get? l = some e → ({ st with heap := heap' } : St).obj e = st.obj e := fun l e hl => h l e hl
  refine ⟨hi.nodup, ?_, ?_, ?_, hi.nodupU, hi.nodupT, ?_⟩
  · intro l e hl
    rw [ho l e hl]
    exact hi.link l e hl
  · intro u l
    rw [hi.uuids]
    constructor
    · rintro ⟨e, x, h1, h2, h3⟩; exact ⟨e, x, h1, by rw [ho l e h1]; exact h2, h3⟩
    · rintro ⟨e, x, h1, h2, h3⟩; exact ⟨e, x, h1, by rw [← ho l e h1]; exact h2, h3⟩
  · intro u l
    rw [hi.types]
    constructor
    · rintro ⟨e, x, h1, h2, h3⟩; exact ⟨e, x, h1, by rw [ho l e h1]; exact h2, h3⟩
    · rintro ⟨e, x, h1, h2, h3⟩; exact ⟨e, x, h1, by rw [← ho l e h1]; exact h2, h3⟩
  · intro n l hn
    obtain ⟨e, x, h1, h2, h3⟩ := hi.names n l hn
    exact ⟨e, x, h1, by rw [ho l e h1]; exact h2, h3⟩

/-- changing only the properties of an object -/
theorem inv_setObj_props (st : St) (hi : Inv st) (c : ℕ) (cur : Ent) (hc : st.obj c = some cur) (p : Dict Str Str) :
    Inv (setObj st c { cur with props := p }) := by
  have hlt := obj_lt hc
  have ho : ∀ e x, st.obj e = some x → ∃ y, (setObj st c { cur with props := p }).obj e = some y ∧ y.link = x.link ∧
      y.origin = x.origin ∧ y.uuid = x.uuid ∧ y.etype = x.etype ∧ y.ext = x.ext := by
    intro e x hx
    rw [obj_setObj st c _ hlt]
    by_cases h : e = c
    · subst h
      rw [hc] at hx
      simp only [Option.some.injEq] at hx
      subst hx
      exact ⟨_, if_pos rfl, rfl, rfl, rfl, rfl, rfl⟩
    · exact ⟨x, by rw [if_neg h]; exact hx, rfl, rfl, rfl, rfl, rfl⟩
  have ho' : ∀ e y, (setObj st c { cur with props := p }).obj e = some y → ∃ x, st.obj e = some x ∧ y.link = x.link ∧
      y.origin = x.origin ∧ y.uuid = x.uuid ∧ y.etype = x.etype ∧ y.ext = x.ext := by
    intro e y hy
    rw [obj_setObj st c _ hlt] at hy
    by_cases h : e = c
    · subst h
      rw [if_pos rfl] at hy
      simp only [Option.some.injEq] at hy
      subst hy
      exact ⟨cur, hc, rfl, rfl, rfl, rfl, rfl⟩
    · rw [if_neg h] at hy
      exact ⟨y, hy, rfl, rfl, rfl, rfl, rfl⟩
  refine ⟨hi.nodup, ?_, ?_, ?_, hi.nodupU, hi.nodupT, ?_⟩
  · intro l e hl
    obtain ⟨x, h1, h2, h3⟩ := hi.link l e hl
    obtain ⟨y, h4, h5, h6, -⟩ := ho e x h1
    exact ⟨y, h4, by rw [h5]; exact h2, by rw [h6]; exact h3⟩
  · intro u l
    show l ∈ (st.uuids.get? u).getD [] ↔ _
    rw [hi.uuids]
    constructor
    · rintro ⟨e, x, h1, h2, h3⟩
      obtain ⟨y, h4, -, -, h5, -⟩ := ho e x h2
      exact ⟨e, y, h1, h4, by rw [h5]; exact h3⟩
    · rintro ⟨e, y, h1, h2, h3⟩
      obtain ⟨x, h4, -, -, h5, -⟩ := ho' e y h2
      exact ⟨e, x, h1, h4, by rw [← h5]; exact h3⟩
  · intro u l
    show l ∈ (st.byType.get? u).getD [] ↔ _
    rw [hi.types]
    constructor
    · rintro ⟨e, x, h1, h2, h3⟩
      obtain ⟨y, h4, -, -, -, h5, -⟩ := ho e x h2
      exact ⟨e, y, h1, h4, by rw [h5]; exact h3⟩
    · rintro ⟨e, y, h1, h2, h3⟩
      obtain ⟨x, h4, -, -, -, h5, -⟩ := ho' e y h2
      exact ⟨e, x, h1, h4, by rw [← h5]; exact h3⟩
  · intro n l hn
    obtain ⟨e, x, h1, h2, h3⟩ := hi.names n l hn
    obtain ⟨y, h4, -, -, -, -, h5⟩ := ho e x h2
    exact ⟨e, y, h1, h4, by rw [h5]; exact h3⟩

/-! ### a new entity -/

theorem inv_insert (st : St) (hi : Inv st) (e : ℕ) (x : Ent) (hx : st.obj e = some x) (ho : x.origin ≠ none)
    (hl : st.ents.get? x.link = none) : Inv (insert st e x) := by
  have hents : ∀ l, (insert st e x).ents.get? l = if l = x.link then some e else st.ents.get? l := by
    intro l
    unfold insert
    dsimp only
    rw [Dict.get?_set]
    by_cases h : l = x.link
    · simp [h]
    · have : ¬ x.link = l := fun hh => h hh.symm
      simp [h, this]
  have hobj : ∀ e', (insert st e x).obj e' = st.obj e' := fun _ => rfl
  have hst : ∀ l e' z, (insert st e x).ents.get? l = some e' ∧ st.obj e' = some z ↔
      (l = x.link ∧ e' = e ∧ z = x) ∨ (st.ents.get? l = some e' ∧ st.obj e' = some z) := by
    intro l e' z
    rw [hents]
    by_cases h : l = x.link
    · rw [if_pos h]
      constructor
      · rintro ⟨h1, h2⟩
        simp only [Option.some.injEq] at h1
        subst h1
        rw [hx] at h2
        simp only [Option.some.injEq] at h2
        exact Or.inl ⟨h, rfl, h2.symm⟩
      · rintro (⟨-, rfl, rfl⟩ | ⟨h1, -⟩)
        · exact ⟨rfl, hx⟩
        · rw [h, hl] at h1; simp at h1
    · rw [if_neg h]
      simp [h]
  refine ⟨Dict.nodup_keys_set _ _ _ hi.nodup, ?_, ?_, ?_, ?_, ?_, ?_⟩
  · intro l e' h
    rw [hents] at h
    split at h
    · rename_i h1
      simp only [Option.some.injEq] at h
      subst h
      exact ⟨x, hx, h1.symm, ho⟩
    · exact hi.link l e' h
  · intro u l
    have h1 : l ∈ ((insert st e x).uuids.get? u).getD [] ↔ l ∈ (st.uuids.get? u).getD [] ∨ (u = x.uuid ∧ l = x.link) :=
      mem_addTo _ _ _ _ _
    rw [h1, hi.uuids]
    constructor
    · rintro (⟨e', z, h2, h3, h4⟩ | ⟨rfl, rfl⟩)
      · refine ⟨e', z, ?_⟩
        rw [hobj, ← and_assoc, hst]
        exact ⟨Or.inr ⟨h2, h3⟩, h4⟩
      · refine ⟨e, x, ?_⟩
        rw [hobj, ← and_assoc, hst]
        exact ⟨Or.inl ⟨rfl, rfl, rfl⟩, rfl⟩
    · rintro ⟨e', z, h2⟩
      rw [hobj, ← and_assoc, hst] at h2
      rcases h2 with ⟨⟨rfl, rfl, rfl⟩ | ⟨h2, h3⟩, h4⟩
      · exact Or.inr ⟨h4.symm, rfl⟩
      · exact Or.inl ⟨e', z, h2, h3, h4⟩
  · intro u l
    have h1 : l ∈ ((insert st e x).byType.get? u).getD [] ↔ l ∈ (st.byType.get? u).getD [] ∨ (u = x.etype ∧ l = x.link) :=
      mem_addTo _ _ _ _ _
    rw [h1, hi.types]
    constructor
    · rintro (⟨e', z, h2, h3, h4⟩ | ⟨rfl, rfl⟩)
      · refine ⟨e', z, ?_⟩
        rw [hobj, ← and_assoc, hst]
        exact ⟨Or.inr ⟨h2, h3⟩, h4⟩
      · refine ⟨e, x, ?_⟩
        rw [hobj, ← and_assoc, hst]
        exact ⟨Or.inl ⟨rfl, rfl, rfl⟩, rfl⟩
    · rintro ⟨e', z, h2⟩
      rw [hobj, ← and_assoc, hst] at h2
      rcases h2 with ⟨⟨rfl, rfl, rfl⟩ | ⟨h2, h3⟩, h4⟩
      · exact Or.inr ⟨h4.symm, rfl⟩
      · exact Or.inl ⟨e', z, h2, h3, h4⟩
  · intro u; exact nodup_addTo _ _ _ hi.nodupU u
  · intro u; exact nodup_addTo _ _ _ hi.nodupT u
  · intro n l hn
    obtain ⟨e', z, h2, h3, h4⟩ := hi.names n l hn
    refine ⟨e', z, ?_⟩
    rw [hobj, ← and_assoc, hst]
    exact ⟨Or.inr ⟨h2, h3⟩, h4⟩

/-- the state in which the entity is stored or merged: its origin is set, or a reference is made; and the object -/
theorem add_reduce (env : Env) (o : PyOrd Str) (st : St) (hi : Inv st) (e : ℕ) (x : Ent) (hx : st.obj e = some x)
    (ht : x.etype ∈ entityTypes) :
    ∃ st1 e', add env o st e = addOrMerge env o st1 e' (storedAs env x) ∧ Inv st1 ∧ st1.obj e' = some (storedAs env x) ∧
      (storedAs env x).origin ≠ none ∧ st1.ents = st.ents ∧ st1.names = st.names ∧ st1.uuids = st.uuids ∧
      st1.byType = st.byType ∧ (Local env x → e' = e) ∧
      (∀ l c, st.ents.get? l = some c → st1.obj c = st.obj c) := by
  unfold add
  rw [hx]
  dsimp only
  rw [if_neg (by simpa using ht)]
  have hlt := obj_lt hx
  unfold storedAs
  cases ho : x.origin with
  | none =>
    dsimp only
    have hu : ∀ l c, st.ents.get? l = some c → c ≠ e := by
      intro l c hl hce
      subst hce
      obtain ⟨y, h1, -, h2⟩ := hi.link l c hl
      rw [hx] at h1
      simp only [Option.some.injEq] at h1
      subst h1
      exact h2 ho
    have hk : ∀ l c, st.ents.get? l = some c → (setObj st e { x with origin := some env.ref }).obj c = st.obj c := by
      intro l c hl
      rw [obj_setObj st e _ hlt, if_neg (hu l c hl)]
    refine ⟨_, e, rfl, inv_heap_unstored st hi _ hk, ?_, by simp, rfl, rfl, rfl, rfl, fun _ => rfl, hk⟩
    rw [obj_setObj st e _ hlt, if_pos rfl]
  | some orig =>
    dsimp only
    by_cases hf : x.isEnt ∧ orig ≠ env.ref
    · rw [if_pos hf, if_pos hf]
      have hk : ∀ l c, st.ents.get? l = some c → (st.heap ++ [x.makeRef])[c]? = st.obj c := by
        intro l c hl
        obtain ⟨y, h1, -⟩ := hi.link l c hl
        rw [List.getElem?_append_left (obj_lt h1)]
        rfl
      have hmk : x.makeRef = { x with isEnt := false, ext := some x.ref, origin := some orig } := by
        unfold Ent.makeRef
        rw [← ho]
      refine ⟨_, st.heap.length, by rw [hmk], inv_heap_unstored st hi _ hk, ?_, by simp, rfl, rfl, rfl, rfl, ?_, hk⟩
      · unfold St.obj
        simp [hmk]
      · intro hl
        exfalso
        rcases hl with h | h | h
        · rw [hf.1] at h; simp at h
        · rw [ho] at h; simp at h
        · rw [ho] at h
          simp only [Option.some.injEq] at h
          exact hf.2 h
    · rw [if_neg hf, if_neg hf]
      exact ⟨st, e, rfl, hi, hx, by rw [ho]; simp, rfl, rfl, rfl, rfl, fun _ => rfl, fun _ _ _ => rfl⟩

theorem storedAs_uuid (env : Env) (x : Ent) : (storedAs env x).uuid = x.uuid := by
  unfold storedAs
  split
  · rfl
  · split <;> rfl

theorem storedAs_etype (env : Env) (x : Ent) : (storedAs env x).etype = x.etype := by
  unfold storedAs
  split
  · rfl
  · split <;> rfl

/-- **Adding a new entity**: it is found under its link; under its UUID, unless that is a custom name; every other key that does
not contain its UUID gives what it gave before; its type has one entity more, the other types are as before. -/
theorem add_new (env : Env) (o : PyOrd Str) (st : St) (hi : Inv st) (e : ℕ) (x : Ent) (hx : st.obj e = some x)
    (ht : x.etype ∈ entityTypes) (hl : st.ents.get? (storedAs env x).link = none) :
    ∃ st' e', add env o st e = .ok () st' ∧ Inv st' ∧ st'.obj e' = some (storedAs env x) ∧ (Local env x → e' = e) ∧
      (∀ r, Answers env st' (storedAs env x).link r ↔ r = some e') ∧
      (env.tu x.uuid = some x.uuid → '/' ∉ x.uuid → st.names.get? x.uuid = none → Answers env st' x.uuid (some e')) ∧
      (∀ key, key ≠ (storedAs env x).link → env.tu key ≠ some x.uuid → ∀ r, Answers env st' key r ↔ Answers env st key r) ∧
      (entitiesOf st' x.etype).Perm (some e' :: entitiesOf st x.etype) ∧
      (∀ t, t ≠ x.etype → entitiesOf st' t = entitiesOf st t) := by
  obtain ⟨st1, e', h1, h2, h3, h4, h5, h6, h7, h8, h9, h10⟩ := add_reduce env o st hi e x hx ht
  have hl1 : st1.ents.get? (storedAs env x).link = none := by rw [h5]; exact hl
  have hinv := inv_insert st1 h2 e' (storedAs env x) h3 h4 hl1
  have hents : ∀ l, (insert st1 e' (storedAs env x)).ents.get? l =
      if l = (storedAs env x).link then some e' else st.ents.get? l := by
    intro l
    unfold insert
    dsimp only
    rw [Dict.get?_set, h5]
    by_cases h : l = (storedAs env x).link
    · simp [h]
    · have : ¬ (storedAs env x).link = l := fun hh => h hh.symm
      simp [h, this]
  have hsame : ∀ l, st.ents.get? l ≠ none → (insert st1 e' (storedAs env x)).ents.get? l = st.ents.get? l := by
    intro l hll
    rw [hents, if_neg]
    intro h
    rw [h] at hll
    exact hll hl
  refine ⟨insert st1 e' (storedAs env x), e', ?_, hinv, h3, h9, ?_, ?_, ?_, ?_, ?_⟩
  · rw [h1]
    unfold addOrMerge
    rw [if_neg (by rw [Dict.has, hl1]; simp)]
  · intro r
    rw [answers_iff, hents, if_pos rfl]
  · intro htu hsl hn
    rw [answers_iff]
    have hz : (insert st1 e' (storedAs env x)).ents.get? x.uuid = none := by
      cases hc : (insert st1 e' (storedAs env x)).ents.get? x.uuid with
      | none => rfl
      | some c =>
        exfalso
        obtain ⟨z, -, hz, -⟩ := hinv.link _ _ hc
        apply hsl
        rw [← hz]
        simp [Ent.link]
    rw [hz]
    dsimp only
    have hn' : (insert st1 e' (storedAs env x)).names.get? x.uuid = none := by
      show st1.names.get? x.uuid = none
      rw [h6]; exact hn
    rw [hn', htu]
    right
    refine ⟨(storedAs env x).link, ?_, by rw [hents, if_pos rfl]⟩
    rw [hinv.uuids]
    exact ⟨e', storedAs env x, by rw [hents, if_pos rfl], h3, storedAs_uuid env x⟩
  · intro key hk1 hk2 r
    rw [answers_iff, answers_iff, hents, if_neg hk1]
    have hn' : (insert st1 e' (storedAs env x)).names.get? key = st.names.get? key := by
      show st1.names.get? key = _
      rw [h6]
    rw [hn']
    cases hc1 : st.ents.get? key with
    | some c => rfl
    | none =>
      dsimp only
      cases hc2 : st.names.get? key with
      | some l =>
        dsimp only
        obtain ⟨c, z, hc3, -, -⟩ := hi.names key l hc2
        rw [hsame l (by rw [hc3]; simp)]
      | none =>
        dsimp only
        cases htk : env.tu key with
        | none => rfl
        | some u =>
          dsimp only
          have hu : ((insert st1 e' (storedAs env x)).uuids.get? u) = st.uuids.get? u := by
            unfold insert addTo
            dsimp only
            rw [h7, Dict.get?_set_ne]
            rw [storedAs_uuid]
            intro h
            exact hk2 (by rw [htk, h])
          rw [hu]
          have : (∃ l ∈ (st.uuids.get? u).getD [], r = (insert st1 e' (storedAs env x)).ents.get? l) ↔
              ∃ l ∈ (st.uuids.get? u).getD [], r = st.ents.get? l := by
            constructor
            · rintro ⟨l, hl1, hl2⟩
              obtain ⟨c, z, hc3, -, -⟩ := (hi.uuids u l).1 hl1
              exact ⟨l, hl1, by rw [hl2, hsame l (by rw [hc3]; simp)]⟩
            · rintro ⟨l, hl1, hl2⟩
              obtain ⟨c, z, hc3, -, -⟩ := (hi.uuids u l).1 hl1
              exact ⟨l, hl1, by rw [hl2, hsame l (by rw [hc3]; simp)]⟩
          rw [this]
  · unfold entitiesOf
    have hb : ((insert st1 e' (storedAs env x)).byType.get? x.etype).getD [] =
        (st.byType.get? x.etype).getD [] ++ [(storedAs env x).link] := by
      unfold insert addTo
      dsimp only
      rw [storedAs_etype, Dict.get?_set_self, Option.getD_some, h8]
      unfold PySet.add
      rw [if_neg]
      intro h
      obtain ⟨c, z, hc3, -, -⟩ := (hi.types _ _).1 h
      rw [hl] at hc3
      simp at hc3
    rw [hb, List.map_append, List.map_singleton, hents, if_pos rfl]
    have : ((st.byType.get? x.etype).getD []).map (fun l => (insert st1 e' (storedAs env x)).ents.get? l) =
        ((st.byType.get? x.etype).getD []).map (fun l => st.ents.get? l) := by
      apply List.map_congr_left
      intro l hl1
      obtain ⟨c, z, hc3, -, -⟩ := (hi.types _ _).1 hl1
      exact hsame l (by rw [hc3]; simp)
    rw [this]
    exact List.perm_append_singleton _ _
  · intro t htt
    unfold entitiesOf
    have hb : ((insert st1 e' (storedAs env x)).byType.get? t).getD [] = (st.byType.get? t).getD [] := by
      unfold insert addTo
      dsimp only
      rw [storedAs_etype, Dict.get?_set_ne _ _ (Ne.symm htt), h8]
    rw [hb]
    apply List.map_congr_left
    intro l hl1
    obtain ⟨c, z, hc3, -, -⟩ := (hi.types _ _).1 hl1
    exact hsame l (by rw [hc3]; simp)

/-! ### an entity that is known -/

theorem merge_props (cur x y : Ent) (h : merge cur x = .ok y) : ∃ p, y = { cur with props := p } := by
  unfold merge at h
  repeat' split at h
  all_goals first
    | (simp at h; done)
    | (simp only [Except.ok.injEq] at h; exact ⟨_, h.symm⟩)

theorem fillProps_get (mine other : Dict Str Str) (k : Str) :
    (fillProps mine other).get? k = (mine.get? k).orElse fun _ => other.get? k := by
  unfold fillProps
  induction other generalizing mine with
  | nil => rw [List.foldl_nil]; cases mine.get? k <;> rfl
  | cons kv other ih =>
    obtain ⟨k', v'⟩ := kv
    rw [List.foldl_cons, ih]
    dsimp only
    by_cases hk : k' = k
    · subst hk
      split
      · rename_i hh
        rw [Dict.has] at hh
        cases hm : mine.get? k' with
        | none => rw [hm] at hh; simp at hh
        | some w => rfl
      · rename_i hh
        rw [Dict.has] at hh
        cases hm : mine.get? k' with
        | none => rw [Dict.get?_set_self]; simp [Dict.get?]
        | some w => rw [hm] at hh; simp at hh
    · have h2 : Dict.get? ((k', v') :: other) k = Dict.get? other k := by simp [Dict.get?, hk]
      rw [h2]
      split
      · rfl
      · rw [Dict.get?_set_ne _ _ hk]

/-- **Merging into a local entity**: a property that it has stays, one that it lacks is taken over. -/
theorem merge_entity_partial (cur x y : Ent) (h : merge cur x = .ok y) (he : cur.isEnt = true) (k : Str) :
    y.props.get? k = (cur.props.get? k).orElse fun _ => x.props.get? k := by
  unfold merge at h
  rw [if_pos he] at h
  repeat' split at h
  all_goals first
    | (simp at h; done)
    | skip
  simp only [Except.ok.injEq] at h
  subst h
  exact fillProps_get _ _ k

/-- **Adding an entity that is known** (its link is stored) never stores it: either it raises and nothing changes, or exactly one
stored entity, found under the UUID, takes properties. Partial: the entity stored under the link has the UUID of the new one. -/
theorem add_known_partial (env : Env) (o : PyOrd Str) (st : St) (hi : Inv st) (e : ℕ) (x : Ent) (hx : st.obj e = some x)
    (ht : x.etype ∈ entityTypes) (c : ℕ) (cx : Ent) (hc : st.ents.get? (storedAs env x).link = some c) (hcx : st.obj c = some cx)
    (hu : cx.uuid = x.uuid) :
    Inv (add env o st e).state ∧ (add env o st e).state.ents = st.ents ∧ (add env o st e).state.names = st.names ∧
      (add env o st e).state.byType = st.byType ∧
      (∀ u l, l ∈ ((add env o st e).state.uuids.get? u).getD [] ↔ l ∈ (st.uuids.get? u).getD []) ∧
      ((add env o st e).error? = none → ∃ m mx p, getitem env o st x.uuid = some m ∧ st.obj m = some mx ∧
        (add env o st e).state.obj m = some { mx with props := p } ∧
        ∀ l d, d ≠ m → st.ents.get? l = some d → (add env o st e).state.obj d = st.obj d) := by
  obtain ⟨st1, e', h1, h2, h3, h4, h5, h6, h7, h8, h9, h10⟩ := add_reduce env o st hi e x hx ht
  have hget : ∀ key, getitem env o st1 key = getitem env o st key := by
    intro key
    unfold getitem keyToId
    rw [h5, h6, h7]
  rw [h1]
  unfold addOrMerge
  rw [if_pos (by rw [Dict.has, h5, hc]; rfl), storedAs_uuid, hget]
  cases hg : getitem env o st x.uuid with
  | none =>
    dsimp only [Out.state, Out.error?]
    exact ⟨h2, h5, h6, h8, fun u l => by rw [h7], fun h => by simp at h⟩
  | some m =>
    dsimp only
    obtain ⟨mx, hm1, hm2⟩ := getitem_stored env o st hi _ _ hg
    have hm3 : st1.obj m = some mx := by rw [h10 _ _ hm2]; exact hm1
    rw [hm3]
    dsimp only
    cases hmg : merge mx (storedAs env x) with
    | error er =>
      dsimp only [Out.state, Out.error?]
      exact ⟨h2, h5, h6, h8, fun u l => by rw [h7], fun h => by simp at h⟩
    | ok y =>
      dsimp only [Out.state, Out.error?]
      obtain ⟨p, hp⟩ := merge_props _ _ _ hmg
      subst hp
      have hi3 := inv_setObj_props st1 h2 m mx hm3 p
      have hmem : ∀ u l, l ∈ ((addTo st1.uuids x.uuid (storedAs env x).link).get? u).getD [] ↔
          l ∈ (st1.uuids.get? u).getD [] := by
        intro u l
        rw [mem_addTo]
        constructor
        · rintro (h | ⟨rfl, rfl⟩)
          · exact h
          · rw [h7, hi.uuids]
            exact ⟨c, cx, hc, hcx, hu⟩
        · exact Or.inl
      refine ⟨⟨hi3.nodup, hi3.link, ?_, hi3.types, ?_, hi3.nodupT, hi3.names⟩, h5, h6, h8, ?_, ?_⟩
      · intro u l
        rw [hmem]
        exact hi3.uuids u l
      · intro u
        exact nodup_addTo _ _ _ h2.nodupU u
      · intro u l
        rw [hmem, h7]
      · intro _
        refine ⟨m, mx, p, rfl, hm1, ?_, ?_⟩
        · show (setObj st1 m { mx with props := p }).obj m = _
          rw [obj_setObj st1 m _ (obj_lt hm3), if_pos rfl]
        · intro l d hd hld
          show (setObj st1 m { mx with props := p }).obj d = _
          rw [obj_setObj st1 m _ (obj_lt hm3), if_neg hd, h10 l d hld]

/-! ### histories -/

/-- the conditions under which an operation keeps the dictionaries consistent -/
def Good (env : Env) (st : St) : Op → Prop
  | .create _ => True
  | .add _ e => ∀ x, st.obj e = some x → ∀ c cx, st.ents.get? (storedAs env x).link = some c → st.obj c = some cx →
      cx.uuid = x.uuid
  | .name _ f n => ∀ x, st.obj f = some x → x.etype = "fragment".toList ∧ st.ents.get? (x.linkAs n) = none

def GoodRun (env : Env) : St → List Op → Prop
  | _, [] => True
  | st, op :: ops => Good env st op ∧ GoodRun env (step env st op) ops

theorem inv_step_partial (env : Env) (st : St) (op : Op) (hi : Inv st) (hg : Good env st op) : Inv (step env st op) := by
  cases op with
  | create x =>
    apply inv_heap_unstored st hi
    intro l e hl
    obtain ⟨y, h1, -⟩ := hi.link l e hl
    rw [List.getElem?_append_left (obj_lt h1)]
    rfl
  | add o e =>
    show Inv (add env o st e).state
    cases hx : st.obj e with
    | none =>
      have : add env o st e = .err .attributeError st := by unfold add; rw [hx]
      rw [this]; exact hi
    | some x =>
      by_cases ht : x.etype ∈ entityTypes
      · cases hl : st.ents.get? (storedAs env x).link with
        | none =>
          obtain ⟨st', e', h1, h2, -⟩ := add_new env o st hi e x hx ht hl
          rw [h1]
          exact h2
        | some c =>
          obtain ⟨cx, hcx, -⟩ := hi.link _ _ hl
          exact (add_known_partial env o st hi e x hx ht c cx hl hcx (hg x hx c cx hl hcx)).1
      · have : add env o st e = .err .valueError st := by
          unfold add
          rw [hx]
          dsimp only
          rw [if_pos ht]
        rw [this]; exact hi
  | name o f n =>
    show Inv (nameFragment env o st f n).state
    cases hx : st.obj f with
    | none =>
      have : nameFragment env o st f n = .err .attributeError st := by unfold nameFragment; rw [hx]
      rw [this]; exact hi
    | some x =>
      obtain ⟨h1, h2⟩ := hg x hx
      by_cases hgl : getitem env o st x.link = some f
      · by_cases he : x.ext = none
        · by_cases hk : keyToId env o st n = none
          · obtain ⟨y, hy, hs⟩ := getitem_stored env o st hi _ _ hgl
            rw [hx] at hy
            simp only [Option.some.injEq] at hy
            subst hy
            obtain ⟨st', h3, h4, -⟩ := name_fragment_partial env o st hi f n x hx hs h1 he hk h2
            rw [h3]
            exact h4
          · have : nameFragment env o st f n = .err .valueError st := by
              unfold nameFragment
              rw [hx]
              dsimp only
              rw [if_neg (by rw [hgl]; simp), if_pos hk]
            rw [this]; exact hi
        · obtain ⟨er, h3⟩ := name_refused env o st f n x hx (Or.inr he)
          rw [h3]; exact hi
      · obtain ⟨er, h3⟩ := name_refused env o st f n x hx (Or.inl hgl)
        rw [h3]; exact hi

/-- **Over every history** of creating, adding and naming in which no fragment gets the link of a stored entity and no added entity
has the link but not the UUID of a stored one, the dictionaries stay consistent, so that the theorems above apply. -/
theorem inv_run_partial (env : Env) (ops : List Op) : ∀ st, Inv st → GoodRun env st ops → Inv (run env st ops) := by
  induction ops with
  | nil => intro st h _; exact h
  | cons op ops ih => intro st h hg; exact ih _ (inv_step_partial env st op h hg.1) hg.2

theorem inv_empty : Inv ⟨[], [], [], [], []⟩ := by
  refine ⟨by simp [Dict.keys], ?_, ?_, ?_, ?_, ?_, ?_⟩ <;> simp

/-! ### concrete cases -/

def env0 : Env := ⟨"fg".toList, fun s => if s.length = 2 then some s else none⟩
def frag0 : Ent := { etype := "fragment".toList, origin := none, uuid := "u1".toList, ext := none }
def flow0 : Ent := { etype := "flow".toList, origin := none, uuid := "u2".toList, ext := some "steel".toList }

def hist0 : List Op := [.create frag0, .create flow0, .add (PyOrd.id _) 0, .add (PyOrd.id _) 1]
def st0 : St := run env0 ⟨[], [], [], [], []⟩ hist0

theorem st0_eq : st0 = ⟨[{ frag0 with origin := some "fg".toList }, { flow0 with origin := some "fg".toList }],
    [("fg/u1".toList, 0), ("fg/steel".toList, 1)], [], [("u1".toList, ["fg/u1".toList]), ("u2".toList, ["fg/steel".toList])],
    [("fragment".toList, ["fg/u1".toList]), ("flow".toList, ["fg/steel".toList])]⟩ := by
  decide +kernel

theorem st0_inv : Inv st0 := by
  refine inv_run_partial env0 hist0 _ inv_empty ⟨trivial, trivial, ?_, ?_, trivial⟩
  · intro x hx c cx hc
    have h1 : (⟨[], [], [], [], []⟩ : St).ents.get? (storedAs env0 x).link = some c := hc
    simp at h1
  · intro x hx c cx hc
    have h0 : step env0 (step env0 (step env0 ⟨[], [], [], [], []⟩ (.create frag0)) (.create flow0)) (.add (PyOrd.id _) 0) =
      ⟨[{ frag0 with origin := some "fg".toList }, flow0], [("fg/u1".toList, 0)], [], [("u1".toList, ["fg/u1".toList])],
        [("fragment".toList, ["fg/u1".toList])]⟩ := by decide +kernel
    rw [h0] at hx hc
    have h1 : x = flow0 := by
      have : St.obj ⟨[{ frag0 with origin := some "fg".toList }, flow0], [("fg/u1".toList, 0)], [],
        [("u1".toList, ["fg/u1".toList])], [("fragment".toList, ["fg/u1".toList])]⟩ 1 = some flow0 := rfl
      rw [this] at hx
      simpa using hx.symm
    subst h1
    exfalso
    revert hc
    have h2 : Dict.get? [("fg/u1".toList, 0)] (storedAs env0 flow0).link = none := by decide +kernel
    intro hc
    rw [h2] at hc
    simp at hc

/-- a name that is free: the conditions of `name_fragment_partial` -/
example : st0.obj 0 = some { frag0 with origin := some "fg".toList } ∧
    st0.ents.get? ({ frag0 with origin := some "fg".toList } : Ent).link = some 0 ∧
    keyToId env0 (PyOrd.id _) st0 "my model".toList = none ∧
    st0.ents.get? (({ frag0 with origin := some "fg".toList } : Ent).linkAs "my model".toList) = none ∧
    (∃ st', nameFragment env0 (PyOrd.id _) st0 0 "my model".toList = .ok () st' ∧
      getitem env0 (PyOrd.id _) st' "my model".toList = some 0 ∧ getitem env0 (PyOrd.id _) st' "u1".toList = some 0 ∧
      getitem env0 (PyOrd.id _) st' "fg/my model".toList = some 0 ∧ getitem env0 (PyOrd.id _) st' "fg/u1".toList = none) := by
  refine ⟨by decide +kernel, by decide +kernel, by decide +kernel, by decide +kernel, ?_⟩
  refine ⟨(nameFragment env0 (PyOrd.id _) st0 0 "my model".toList).state, ?_, by decide +kernel, by decide +kernel,
    by decide +kernel, by decide +kernel⟩
  have h : (nameFragment env0 (PyOrd.id _) st0 0 "my model".toList).error? = none := by decide +kernel
  revert h
  cases nameFragment env0 (PyOrd.id _) st0 0 "my model".toList with
  | ok a s => intro _; rfl
  | err er s => intro h; simp [Out.error?] at h

/-- a name that is taken -/
example : (∃ e, getitem env0 (PyOrd.id _) st0 "fg/steel".toList = some e) ∧ (∃ e, getitem env0 (PyOrd.id _) st0 "u2".toList = some e) :=
  ⟨⟨1, by decide +kernel⟩, ⟨1, by decide +kernel⟩⟩

/-- **Naming a fragment after a local flow loses the flow.** The flow 'steel' of this foreground is stored under 'fg/steel'. The name
'steel' is not found to be taken; the fragment gets that link, and the flow can no longer be reached: its link and its UUID lead to
the fragment, which is also listed among the flows. -/
theorem name_overwrites :
    getitem env0 (PyOrd.id _) st0 "fg/steel".toList = some 1 ∧ getitem env0 (PyOrd.id _) st0 "u2".toList = some 1 ∧
    (nameFragment env0 (PyOrd.id _) st0 0 "steel".toList).error? = none ∧
    (let st' := (nameFragment env0 (PyOrd.id _) st0 0 "steel".toList).state;
      getitem env0 (PyOrd.id _) st' "fg/steel".toList = some 0 ∧ getitem env0 (PyOrd.id _) st' "u2".toList = some 0 ∧
      entitiesOf st' "flow".toList = [some 0] ∧ st'.ents.vals = [0]) := by
  decide +kernel

/-- a name that contains the UUID of something stored is refused, though it is free -/
example : (nameFragment env0 (PyOrd.id _) st0 0 "u2".toList).error? = some .valueError := by decide +kernel

/-- Naming something that is no fragment raises after the dictionaries have been changed. -/
theorem name_flow_raises : let s1 := run env0 ⟨[], [], [], [], []⟩ [.create { flow0 with ext := none }, .add (PyOrd.id _) 0]
    (nameFragment env0 (PyOrd.id _) s1 0 "steel".toList).error? = some .keyError ∧
    (nameFragment env0 (PyOrd.id _) s1 0 "steel".toList).state ≠ s1 ∧
    entitiesOf (nameFragment env0 (PyOrd.id _) s1 0 "steel".toList).state "flow".toList = [none] := by
  decide +kernel

def refA : Ent := { isEnt := false, etype := "flow".toList, origin := some "a".toList, uuid := "u3".toList, ext := some "u3".toList }
def refB : Ent := { refA with origin := some "b".toList }

/-- **Adding an entity again may merge it into an entity of another origin**: two origins have a flow with one UUID. The properties
of b's flow, added again, go to a's flow. -/
theorem add_merges_wrong :
    let s1 := run env0 ⟨[], [], [], [], []⟩ [.create refA, .create refB, .add (PyOrd.id _) 0, .add (PyOrd.id _) 1,
      .create { refB with props := [("Comment".toList, "of b".toList)] }, .add (PyOrd.id _) 2]
    getitem env0 (PyOrd.id _) s1 "b/u3".toList = some 1 ∧ (s1.obj 1).map Ent.props = some [] ∧
    getitem env0 (PyOrd.id _) s1 "a/u3".toList = some 0 ∧
    (s1.obj 0).map Ent.props = some [("Comment".toList, "of b".toList)] := by
  decide +kernel

/-- **Merging into a reference overwrites**, contrary to the comment in base.py:155 -/
theorem merge_ref_overwrites :
    merge { refA with props := [("Name".toList, "old".toList)] } { refA with props := [("Name".toList, "new".toList)] } =
      .ok { refA with props := [("Name".toList, "new".toList)] } := by
  decide +kernel

example : merge { flow0 with props := [("Name".toList, "old".toList)] }
      { flow0 with props := [("Name".toList, "new".toList), ("Comment".toList, "c".toList)] } =
    .ok { flow0 with props := [("Name".toList, "old".toList), ("Comment".toList, "c".toList)] } := by
  decide +kernel

end Fg
