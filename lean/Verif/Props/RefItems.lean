import Verif.Model.RefItems
import Verif.Props.LowerDict

/-!
C108: properties of catalog references. C109: references in JSON. C110: merging. C111: identity of entities.
-/

namespace RefI

/-! ### C108 -/

/-- the call may change what a reference says about `item`: an assignment to a name that is stored as `item` or 'local_item', or a
forced query for one of them -/
def Touches (lower : String → String) (item : String) : Op → Prop
  | .set k _ => storedName lower k = item ∨ storedName lower k = "local_" ++ item
  | .get i f _ => f = true ∧ (i = item ∨ i = "local_" ++ item)

theorem localName_ne (i : String) : localName i ≠ i := by
  intro h
  have := congrArg String.length h
  simp [localName] at this

theorem getItem_state (f : Bool) (r : Option Val) (d : D) (i : String) :
    (getItem f r d i).2 = d ∨ (∃ s, (getItem f r d i).2 = d.set i (.str s) ∧ (f = true ∨ localItem d i = .none)) := by
  unfold getItem
  split
  · exact .inl rfl
  · rename_i hc
    have : f = true ∨ localItem d i = .none := by
      cases f with
      | true => exact .inl rfl
      | false => simpa using hc
    split
    · split
      · exact .inr ⟨_, rfl, this⟩
      · exact .inl rfl
    · exact .inl rfl

/-- what a reference says about an item does not change with calls that do not touch it -/
theorem localItem_kept {lower : String → String} {item : String} {v : Val} (hv : v ≠ .none) (ops : List Op)
    (hops : ∀ op ∈ ops, ¬Touches lower item op) : ∀ (d : D), localItem d item = v → localItem (run lower ops d) item = v := by
  induction ops with
  | nil => intro d h; exact h
  | cons op ops ih =>
    intro d h
    have : run lower (op :: ops) d = run lower ops (step lower d op) := rfl
    rw [this]
    refine ih (fun o ho => hops o (List.mem_cons_of_mem _ ho)) _ ?_
    have hop := hops op List.mem_cons_self
    cases op with
    | set k w =>
      simp only [Touches, not_or] at hop
      show localItem (d.set (storedName lower k) w) item = v
      unfold localItem
      rw [Dict.get?_set_ne _ _ hop.1, Dict.get?_set_ne _ _ (show storedName lower k ≠ localName item from hop.2)]
      exact h
    | get i f r =>
      simp only [Touches, not_and, not_or] at hop
      show localItem (getItem f r d i).2 item = v
      rcases getItem_state f r d i with h' | ⟨s, h', hf⟩
      · rw [h']; exact h
      · rw [h']
        by_cases hi : i = item
        · rcases hf with hf | hf
          · exact absurd hi (hop hf).1
          · rw [hi, h] at hf; exact absurd hf hv
        · by_cases hli : i = localName item
          · rcases hf with hf | hf
            · exact absurd hli (hop hf).2
            · unfold localItem at h ⊢
              rw [Dict.get?_set_ne _ _ hi]
              cases hg : d.get? item with
              | some w => rw [hg] at h; exact h
              | none =>
                rw [hg] at h
                exfalso
                unfold localItem at hf
                rw [hli] at hf
                cases hw : d.get? (localName item) with
                | none => rw [hw] at h; exact hv h.symm
                | some w =>
                  rw [hw] at hf h
                  simp only at hf
                  exact hv (h.symm.trans hf)
          · unfold localItem at h ⊢
            rw [Dict.get?_set_ne _ _ hi, Dict.get?_set_ne _ _ hli]
            exact h

theorem getItem_local {d : D} {item : String} {v : Val} (hv : v ≠ .none) (h : localItem d item = v) (r : Option Val) :
    getItem false r d item = (v, d) := by
  unfold getItem
  rw [h]
  simp [hv]

/-- C108: a property that is assigned in lower case, and that the reference has not looked up or been given before, is read back,
whatever the database says, as long as it is not assigned again and no query is forced for it. -/
theorem assigned_read_partial {lower : String → String} {k : String} (hk : lower k = k) (hp : ¬"local_".toList <+: k.toList)
    {v : Val} (hv : v ≠ .none) {d : D} (hd : d.get? k = none) (ops : List Op) (hops : ∀ op ∈ ops, ¬Touches lower k op)
    (remote : Option Val) : index remote (run lower ops (setItem lower d k v)) k = .ok v (run lower ops (setItem lower d k v)) := by
  have hs : storedName lower k = localName k := by
    unfold storedName
    simp only [hk]
    rw [if_neg]
    rw [List.isPrefixOf_iff_prefix]
    exact hp
  have h0 : localItem (setItem lower d k v) k = v := by
    unfold localItem setItem
    rw [hs, Dict.get?_set_ne _ _ (localName_ne k), hd]
    simp [Dict.get?_set_self]
  have := localItem_kept hv ops hops _ h0
  unfold index
  rw [getItem_local hv this]
  simp [hv]

/-- C108: a property that was read is read again with the same value, whatever the database says by then, unless it is assigned or a
query is forced -/
theorem read_stable {lower : String → String} {item : String} {d d' : D} {v : Val} {remote : Option Val}
    (h : index remote d item = .ok v d') (ops : List Op) (hops : ∀ op ∈ ops, ¬Touches lower item op) (remote' : Option Val) :
    index remote' (run lower ops d') item = .ok v (run lower ops d') := by
  have key : v ≠ .none ∧ localItem d' item = v := by
    unfold index at h
    simp only at h
    split at h
    · cases h
    · rename_i hn
      cases h
      refine ⟨hn, ?_⟩
      unfold getItem at hn ⊢
      split
      · rfl
      · rename_i hc
        split
        · split
          · unfold localItem
            simp only [Dict.get?_set_self]
          · rename_i s hs
            exfalso
            apply hn
            rw [if_neg hc]
            simp only [hs, if_false]
        · rename_i hr
          exfalso
          apply hn
          rw [if_neg hc]
          split
          · rename_i s; exact absurd rfl (hr s)
          · rfl
  have := localItem_kept key.1 ops hops _ key.2
  unfold index
  rw [getItem_local key.1 this]
  simp [key.1]

/-- a property assigned with a capital letter is not found: the database answers instead -/
theorem assigned_not_read {lower : String → String} {k : String} (h1 : storedName lower k ≠ k) (h2 : storedName lower k ≠ localName k)
    (v : Val) (s : String) (hs : s ≠ "") :
    (index (some (.str s)) (setItem lower [] k v) k).value? = some (.str s) ∧
      (index none (setItem lower [] k v) k).error? = some .keyError := by
  have : localItem (setItem lower [] k v) k = .none := by
    unfold localItem setItem
    rw [Dict.get?_set_ne _ _ h1, Dict.get?_set_ne _ _ h2]
    rfl
  constructor
  · unfold index getItem
    rw [this]
    simp [hs, Out.value?]
  · unfold index getItem
    rw [this]
    simp [Out.error?]

/-- C108: asking whether a property is there is the same as asking whether it can be read without the database -/
theorem hasProperty_spec (d : D) (item : String) : hasProperty d item = true ↔ ∃ v, index none d item = .ok v d := by
  unfold hasProperty index getItem
  by_cases h : localItem d item = .none
  · simp [h]
  · simp [h]

/-- C108: looking up a reference in a catalog keeps what the reference found says about every property (with a name that does not
begin with 'local_'), if the names of the local items are in lower case -/
theorem lookup_keeps_partial {lower : String → String} (l : D) (hl : ∀ kv ∈ l, lower kv.1 = kv.1) : ∀ (found : D) (item : String),
    ¬"local_".toList <+: item.toList → hasProperty found item = true → localItem (lookupItems lower l found) item = localItem found item := by
  induction l with
  | nil => intro found item _ _; rfl
  | cons kv l ih =>
    intro found item hpi h
    have : lookupItems lower (kv :: l) found =
        lookupItems lower l (if hasProperty found kv.1 then found else setItem lower found kv.1 kv.2) := rfl
    rw [this]
    have ih := ih (fun kv h => hl kv (List.mem_cons_of_mem _ h))
    by_cases hh : hasProperty found kv.1 = true
    · rw [if_pos hh]; exact ih found item hpi h
    · rw [if_neg hh]
      have hkey : localItem (setItem lower found kv.1 kv.2) item = localItem found item := by
        have hk := hl kv List.mem_cons_self
        have hitem : item ≠ kv.1 := by rintro rfl; exact hh h
        have hnone : localItem found kv.1 = .none := by
          refine Classical.byContradiction fun hc => hh (by unfold hasProperty; simp [hc])
        have hitem' : localItem found item ≠ .none := by
          unfold hasProperty at h; simpa using h
        unfold setItem
        by_cases hp : "local_".toList.isPrefixOf kv.1.toList = true
        · have hs : storedName lower kv.1 = kv.1 := by unfold storedName; simp only [hk]; rw [if_pos hp]
          rw [hs]
          unfold localItem at *
          rw [Dict.get?_set_ne _ _ hitem.symm]
          cases hg : found.get? item with
          | some w => rfl
          | none =>
            simp only [hg] at hitem' ⊢
            by_cases hx : kv.1 = localName item
            · exfalso
              rw [hx] at hnone
              cases hw : found.get? (localName item) with
              | none => rw [hw] at hitem'; exact hitem' rfl
              | some w => rw [hw] at hnone hitem'; exact hitem' hnone
            · rw [Dict.get?_set_ne _ _ hx]
        · have hs : storedName lower kv.1 = localName kv.1 := by unfold storedName; simp only [hk]; rw [if_neg hp]
          rw [hs]
          have hinj : localName kv.1 ≠ localName item := by
            intro hc
            apply hitem
            have := congrArg String.toList hc
            simp only [localName, String.toList_append, List.append_cancel_left_eq] at this
            exact (String.toList_inj.1 this).symm
          unfold localItem at *
          rw [Dict.get?_set_ne _ _ hinj]
          by_cases hx : localName kv.1 = item
          · exfalso
            apply hpi
            rw [← hx]
            simp only [localName, String.toList_append]
            exact List.prefix_append _ _
          · rw [Dict.get?_set_ne _ _ hx]
      rw [← hkey]
      refine ih _ item hpi ?_
      unfold hasProperty at h ⊢
      rw [hkey]
      exact h

/-! ### C109 -/

/-- names that `from_json` takes for something else -/
def reserved : List String := ["origin", "externalId", "entityType", "entityId", "uuid", "external_ref", "entity_type", "self"]

theorem get?_update (d : D) : ∀ (j : J) (k : String), d.keys.Nodup → (update j d).get? k = (d.get? k).or (j.get? k) := by
  induction d with
  | nil => intro j k _; rfl
  | cons kv d ih =>
    intro j k hn
    have hn' := List.nodup_cons.1 (by simpa [Dict.keys] using hn : (kv.1 :: Dict.keys d).Nodup)
    have : update j (kv :: d) = update (Dict.set j kv.1 kv.2) d := rfl
    rw [this, ih _ _ hn'.2]
    obtain ⟨k', v'⟩ := kv
    by_cases he : k' = k
    · subst he
      have : Dict.get? d k' = none := (Dict.not_mem_keys_iff _ _).1 hn'.1
      rw [this, Dict.get?_set_self]
      simp [Dict.get?]
    · rw [Dict.get?_set_ne _ _ he]
      simp [Dict.get?, he]

theorem localName_not_reserved (i : String) : localName i ∉ reserved := by
  intro h
  have hp : "local_".toList <+: (localName i).toList := by
    simp only [localName, String.toList_append]
    exact List.prefix_append _ _
  have : ∀ s ∈ reserved, ¬"local_".toList <+: s.toList := by decide +kernel
  exact this _ h hp

/-- reading what is written -/
theorem reload {r : Ref} (hn : r.d.keys.Nodup) (hr : ∀ k ∈ r.d.keys, k ∉ reserved) :
    ∃ r', fromJson (serialize r) = .ok r' ∧ r'.origin = r.origin ∧ r'.ext = r.ext ∧ r'.etype = none ∧ r'.uuid = none ∧
      r'.asgn = (match r.etype with | some t => if t = "unknown" then none else some t | none => none) ∧
      ∀ k, k ∉ reserved → r'.d.get? k = r.d.get? k := by
  have hg : ∀ k ∈ reserved, r.d.get? k = none := fun k hk => (Dict.not_mem_keys_iff _ _).1 fun h => hr k h hk
  have hj : ∀ k, (serialize r).get? k =
      if k = "entityId" ∧ r.etype ≠ none then some (.str r.getUuid) else (r.d.get? k).or
        (if k = "origin" then some (.str r.origin) else if k = "externalId" then some (.str r.ext)
          else if k = "entityType" then r.etype.map Val.str else none) := by
    intro k
    unfold serialize
    cases het : r.etype with
    | none =>
      simp only [get?_update _ _ _ hn]
      simp [Dict.get?, eq_comm]
    | some t =>
      simp only
      by_cases hk : k = "entityId"
      · subst hk; rw [Dict.get?_set_self]; simp
      · rw [Dict.get?_set_ne _ _ (Ne.symm hk), get?_update _ _ _ hn]
        simp only [hk, false_and, if_false]
        congr 1
        simp only [Dict.set]
        simp [Dict.get?, eq_comm]
  have hex : (serialize r).get? "externalId" = some (.str r.ext) := by rw [hj, hg _ (by decide)]; simp
  have hor : ((serialize r).del "externalId" |>.del "entityType").get? "origin" = some (.str r.origin) := by
    rw [Dict.get?_del', Dict.get?_del', hj, hg _ (by decide)]; simp
  have hety : ((serialize r).del "externalId").get? "entityType" = r.etype.map Val.str := by
    rw [Dict.get?_del', hj, hg _ (by decide)]; simp
  have hj3 : ∀ k, (((serialize r).del "externalId").del "entityType" |>.del "origin").get? k =
      if k = "externalId" ∨ k = "entityType" ∨ k = "origin" then none
      else if k = "entityId" ∧ r.etype ≠ none then some (.str r.getUuid) else r.d.get? k := by
    intro k
    rw [Dict.get?_del', Dict.get?_del', Dict.get?_del', hj]
    by_cases h1 : k = "externalId" <;> by_cases h2 : k = "entityType" <;> by_cases h3 : k = "origin" <;>
      simp [h1, h2, h3, eq_comm]
  have hhas : ∀ k, k ∈ ["external_ref", "entity_type", "self"] →
      (((serialize r).del "externalId").del "entityType" |>.del "origin").has k = false := by
    intro k hk
    cases h : (((serialize r).del "externalId").del "entityType" |>.del "origin").has k with
    | false => rfl
    | true =>
      obtain ⟨v, hv⟩ := (Dict.mem_keys_iff _ _).1 ((Dict.has_iff _ _).1 h)
      rw [hj3] at hv
      simp only [List.mem_cons, List.not_mem_nil, or_false] at hk
      rcases hk with rfl | rfl | rfl
      · simp [hg "external_ref" (by decide)] at hv
      · simp [hg "entity_type" (by decide)] at hv
      · simp [hg "self" (by decide)] at hv
  unfold fromJson
  rw [hex]
  simp only [hor, hety, hhas "external_ref" (by decide), hhas "entity_type" (by decide), hhas "self" (by decide),
    Bool.or_self, Bool.false_eq_true, if_false]
  refine ⟨_, rfl, rfl, rfl, rfl, ?_, ?_, ?_⟩
  · have : (((serialize r).del "externalId").del "entityType" |>.del "origin").get? "uuid" = none := by
      rw [hj3, hg _ (by decide)]; rfl
    simp only [this]
  · cases het : r.etype <;> rfl
  · intro k hk
    show Dict.get? (Dict.del _ "uuid") k = _
    rw [Dict.get?_del', hj3]
    have h : ∀ s ∈ reserved, k ≠ s := fun s hs hc => hk (hc ▸ hs)
    simp [h "externalId" (by decide), h "entityType" (by decide), h "origin" (by decide),
      h "entityId" (by decide), (h "uuid" (by decide)).symm]

/-- C109: a reference of a class with a type (flow, process, quantity, fragment) that is written and read has the same type, origin,
external reference and items; its uuid is the external reference -/
theorem ref_reload_partial {r : Ref} {t : String} (ht : r.etype = some t) (ha : r.asgn = none) (htu : t ≠ "unknown")
    (hn : r.d.keys.Nodup) (hr : ∀ k ∈ r.d.keys, k ∉ reserved) :
    ∃ r', fromJson (serialize r) = .ok r' ∧ r'.entityType = r.entityType ∧ r'.origin = r.origin ∧ r'.ext = r.ext ∧
      r'.getUuid = r.ext ∧ ∀ item, item ∉ reserved → localItem r'.d item = localItem r.d item := by
  obtain ⟨r', h1, h2, h3, h4, h5, h6, h7⟩ := reload hn hr
  refine ⟨r', h1, ?_, h2, h3, ?_, ?_⟩
  · unfold Ref.entityType
    rw [h6, ht, ha]
    simp [htu]
  · unfold Ref.getUuid; rw [h5, h3]; rfl
  · intro item hi
    unfold localItem
    rw [h7 item hi, h7 _ (localName_not_reserved item)]

/-- a CatalogRef loses its type: the reference read is unknown, so it is not equal to the one written -/
theorem catalog_ref_type_lost {r : Ref} (ht : r.etype = none) (hn : r.d.keys.Nodup) (hr : ∀ k ∈ r.d.keys, k ∉ reserved) :
    ∃ r', fromJson (serialize r) = .ok r' ∧ r'.entityType = "unknown" ∧ r'.origin = r.origin ∧ r'.ext = r.ext ∧
      ∀ item, item ∉ reserved → localItem r'.d item = localItem r.d item := by
  obtain ⟨r', h1, h2, h3, h4, h5, h6, h7⟩ := reload hn hr
  refine ⟨r', h1, ?_, h2, h3, ?_⟩
  · unfold Ref.entityType
    rw [h6, ht, h4]
    rfl
  · intro item hi
    unfold localItem
    rw [h7 item hi, h7 _ (localName_not_reserved item)]

/-! ### C110 -/

/-- references of different types, or to different external references, are not merged -/
theorem merge_ref_refused {a b : Ref} (h : a.entityType ≠ b.entityType ∨ (a.link ≠ b.link ∧ a.ext ≠ b.ext)) :
    mergeRef a b = .err .refMerge a := by
  unfold mergeRef
  rcases h with h | h
  · rw [if_pos h]
  · simp [h]

/-- merging references: every item of the other reference is taken over, whether there was one or not ("left argument is dominant"
says the comment in the code); the others stay -/
theorem merge_ref_right_dominant {a b : Ref} (hn : b.d.keys.Nodup) (h1 : a.entityType = b.entityType) (h2 : a.ext = b.ext) :
    ∃ a', mergeRef a b = .ok () a' ∧ a'.link = a.link ∧
      ∀ k, a'.d.get? k = (b.d.get? k).or (a.d.get? k) := by
  refine ⟨{ a with d := update a.d b.d }, ?_, rfl, fun k => get?_update _ _ _ hn⟩
  unfold mergeRef
  rw [if_neg (by simpa using h1), if_neg fun h => h.2 h2]

theorem mem_keys_iff' {d : LDict.St String Val} {k : String} : k ∈ LDict.keys d ↔ k ∈ d.map (·.1) := by
  unfold LDict.keys
  have : ∀ (l acc : List String), k ∈ l.foldl (fun l k => if k ∈ l then l else l ++ [k]) acc ↔ k ∈ acc ∨ k ∈ l := by
    intro l
    induction l with
    | nil => intro acc; simp
    | cons x l ih =>
      intro acc
      rw [List.foldl_cons, ih]
      by_cases hx : x ∈ acc
      · rw [if_pos hx]
        simp only [List.mem_cons]
        constructor
        · rintro (h | h)
          · exact .inl h
          · exact .inr (.inr h)
        · rintro (h | rfl | h)
          · exact .inl h
          · exact .inl hx
          · exact .inr h
      · rw [if_neg hx]
        simp only [List.mem_append, List.mem_cons, List.not_mem_nil, or_false, or_assoc]
  rw [this]
  simp

/-- C110: merging entities of the same type and external reference adds the properties that are missing and changes no others, if
properties that both have are spelled alike -/
theorem merge_entity_partial {lower : String → String} {self other : Ent} (h1 : self.etype = other.etype) (h2 : self.ext = other.ext)
    (hs : LDict.Distinct lower self.props) (ho : LDict.Distinct lower other.props)
    (hsp : ∀ k ∈ other.props.map (·.1), ∀ k' ∈ self.props.map (·.1), lower k = lower k' → k = k') :
    ∃ e, mergeEnt lower self other = .ok () e ∧ e.ext = self.ext ∧ e.quantities = self.quantities ∧
      ∀ x, LDict.getItem lower e.props x = (LDict.getItem lower self.props x).or (LDict.getItem lower other.props x) := by
  refine ⟨{ self with props := mergeProps lower other.props self.props }, ?_, rfl, rfl, ?_⟩
  · unfold mergeEnt
    rw [if_neg (by simpa using h1), if_neg (by simpa using h2)]
  · show ∀ x, LDict.getItem lower (mergeProps lower other.props self.props) x = _
    generalize self.props = s at hs hsp
    generalize other.props = o at ho hsp
    clear h1 h2 self other
    induction o generalizing s with
    | nil => intro x; simp [mergeProps, LDict.getItem]
    | cons kv o ih =>
      obtain ⟨k, v⟩ := kv
      intro x
      have ho' := List.nodup_cons.1 (by simpa [LDict.Distinct] using ho : (lower k :: o.map fun p => lower p.1).Nodup)
      have hstep : mergeProps lower ((k, v) :: o) s =
          mergeProps lower o (if k ∈ LDict.keys s then s else LDict.set lower s k v) := rfl
      rw [hstep]
      have hcons : LDict.getItem lower ((k, v) :: o) x = if lower k = lower x then some v else LDict.getItem lower o x := by
        unfold LDict.getItem
        by_cases hx : lower k = lower x
        · simp [hx]
        · simp [hx]
      by_cases hk : k ∈ LDict.keys s
      · rw [if_pos hk, ih s hs ho'.2 (fun k1 h1 => hsp k1 (List.mem_cons_of_mem _ h1)) x, hcons]
        by_cases hx : lower k = lower x
        · obtain ⟨p, hp, he⟩ := List.mem_map.1 (mem_keys_iff'.1 hk)
          have : ∃ w, LDict.getItem lower s x = some w := by
            cases hg : LDict.getItem lower s x with
            | some w => exact ⟨w, rfl⟩
            | none =>
              unfold LDict.getItem at hg
              rw [Option.map_eq_none_iff, List.find?_eq_none] at hg
              exact absurd (decide_eq_true (by rw [he]; exact hx)) (hg p hp)
          obtain ⟨w, hw⟩ := this
          rw [hw]; rfl
        · rw [if_neg hx]
      · rw [if_neg hk]
        rw [ih (LDict.set lower s k v) (LDict.distinct_set hs _ _) ho'.2 ?_ x]
        · rw [LDict.getItem_set, hcons]
          by_cases hx : lower k = lower x
          · rw [if_pos hx, if_pos hx]
            have : LDict.getItem lower s x = none := by
              apply LDict.getItem_none
              intro hc
              obtain ⟨p, hp, he⟩ := List.mem_map.1 hc
              have := hsp k (by simp) p.1 (List.mem_map.2 ⟨p, hp, rfl⟩) (hx.trans he.symm)
              exact hk (mem_keys_iff'.2 (List.mem_map.2 ⟨p, hp, this.symm⟩))
            rw [this]; rfl
          · rw [if_neg hx, if_neg hx]
        · intro k1 hk1 k2 hk2 he
          obtain ⟨p2, hp2, rfl⟩ := List.mem_map.1 hk2
          have hlow : lower k1 ∈ (o.map fun p => lower p.1) := by
            obtain ⟨p1, hp1, rfl⟩ := List.mem_map.1 hk1
            exact List.mem_map.2 ⟨p1, hp1, rfl⟩
          -- the keys of the new dict are those of the old one and k
          have hor : p2.1 ∈ s.map (·.1) ∨ lower p2.1 = lower k := by
            have : ∀ (d : LDict.St String Val), p2 ∈ LDict.set lower d k v → p2.1 ∈ d.map (·.1) ∨ lower p2.1 = lower k := by
              intro d
              induction d with
              | nil => intro h; simp [LDict.set] at h; right; rw [h]
              | cons q d ihd =>
                obtain ⟨q1, q2⟩ := q
                intro h
                simp only [LDict.set] at h
                split at h
                · rcases List.mem_cons.1 h with h | h
                  · left; rw [h]; simp
                  · left; exact List.mem_cons_of_mem _ (List.mem_map.2 ⟨p2, h, rfl⟩)
                · rcases List.mem_cons.1 h with h | h
                  · left; rw [h]; simp
                  · rcases ihd h with h | h
                    · exact .inl (List.mem_cons_of_mem _ h)
                    · exact .inr h
            exact this s hp2
          rcases hor with h | h
          · exact hsp k1 (List.mem_cons_of_mem _ hk1) p2.1 h he
          · exact absurd (h ▸ he ▸ hlow) ho'.1

/-- entities of different types or external references are not merged, and not changed -/
theorem merge_entity_refused {lower : String → String} {self other : Ent} (h : self.etype ≠ other.etype ∨ self.ext ≠ other.ext) :
    mergeEnt lower self other = .err .entityMerge self := by
  unfold mergeEnt
  rcases h with h | h
  · rw [if_pos h]
  · simp [h]

/-- merging flows never adds a characterisation: it raises as soon as the other flow has a quantity that is not known -/
theorem merge_flow_characterizations (lower : String → String) {self other : Ent} (h1 : self.etype = other.etype)
    (h2 : self.ext = other.ext) :
    (mergeFlow lower self other).state.quantities = self.quantities ∧
      ((mergeFlow lower self other).error? = some .attributeError ↔ ∃ q ∈ other.quantities, q ∉ self.quantities) := by
  unfold mergeFlow mergeEnt
  rw [if_neg (by simpa using h1), if_neg (by simpa using h2)]
  simp only [Out.bind]
  split
  · rename_i h
    refine ⟨rfl, ?_⟩
    simp only [Out.error?]
    constructor
    · intro h; cases h
    · rintro ⟨q, hq, hn⟩
      rw [List.all_eq_true] at h
      exact absurd (by simpa using h q hq) hn
  · rename_i h
    refine ⟨rfl, ?_⟩
    simp only [Out.error?, true_iff]
    rw [List.all_eq_true] at h
    refine Classical.byContradiction fun hc => h ?_
    intro q hq
    simp only [decide_eq_true_eq]
    exact Classical.byContradiction fun hn => hc ⟨q, hq, hn⟩

/-! ### C111 -/

/-- no call maps origins -/
def NoMap (ops : List IOp) : Prop := ∀ op ∈ ops, ∀ m f, op ≠ .map m f

/-- C111: type and uuid never change; an origin, once set, changes only when origins are mapped; an external reference that differs
from the uuid never changes -/
theorem identity_kept (ops : List IOp) : ∀ (e : Ident),
    (irun ops e).etype = e.etype ∧ (irun ops e).uuid = e.uuid ∧
      (∀ o, NoMap ops → e.origin = some o → (irun ops e).origin = some o) ∧
      (e.extRef ≠ none → (irun ops e).ext = e.ext) := by
  induction ops with
  | nil => intro e; exact ⟨rfl, rfl, fun _ _ h => h, fun _ => rfl⟩
  | cons op ops ih =>
    intro e
    have hr : irun (op :: ops) e = irun ops (istep e op) := rfl
    obtain ⟨h1, h2, h3, h4⟩ := ih (istep e op)
    rw [hr]
    have hs : (istep e op).etype = e.etype ∧ (istep e op).uuid = e.uuid ∧
        (∀ o, (∀ m f, op ≠ .map m f) → e.origin = some o → (istep e op).origin = some o) ∧
        (e.extRef ≠ none → (istep e op).extRef = e.extRef) := by
      cases op with
      | origin o =>
        simp only [istep, setOrigin]
        cases ho : e.origin with
        | none => exact ⟨rfl, rfl, fun _ _ h => by (cases h), fun _ => rfl⟩
        | some o' => exact ⟨rfl, rfl, fun o _ h => ho.trans h, fun _ => rfl⟩
      | map m f =>
        simp only [istep, mapOrigin]
        split
        · exact ⟨rfl, rfl, fun _ h => absurd rfl (h m f), fun _ => rfl⟩
        · split
          · exact ⟨rfl, rfl, fun _ h => absurd rfl (h m _), fun _ => rfl⟩
          · exact ⟨rfl, rfl, fun _ h => absurd rfl (h m _), fun _ => rfl⟩
      | ext r =>
        simp only [istep, setExt]
        cases he : e.extRef with
        | some s => exact ⟨rfl, rfl, fun _ _ h => h, fun _ => he⟩
        | none =>
          refine ⟨?_, ?_, ?_, fun h => absurd rfl h⟩
          · simp only [Out.state]; split <;> rfl
          · simp only [Out.state]; split <;> rfl
          · intro o _ h; simp only [Out.state]; split <;> exact h
      | makeRef q =>
        simp only [istep, makeRef]
        split
        · exact ⟨rfl, rfl, fun _ _ h => h, fun _ => rfl⟩
        · exact ⟨rfl, rfl, fun _ _ h => h, fun _ => rfl⟩
    obtain ⟨s1, s2, s3, s4⟩ := hs
    refine ⟨h1.trans s1, h2.trans s2, ?_, ?_⟩
    · intro o hm ho
      exact h3 o (fun x hx => hm x (List.mem_cons_of_mem _ hx)) (s3 o (hm op List.mem_cons_self) ho)
    · intro he
      have s4 := s4 he
      rw [h4 (by rw [s4]; exact he)]
      unfold Ident.ext
      rw [s4, s2]

/-- C111: setting the origin or the external reference a second time is refused and changes nothing -/
theorem identity_set_once (e : Ident) (o s : String) :
    (e.origin ≠ none → setOrigin o e = .err .propertyExists e) ∧ (e.extRef ≠ none → setExt s e = .err .propertyExists e) ∧
      (e.origin = none → ∃ e', setOrigin o e = .ok () e' ∧ e'.origin = some o) ∧
      (e.extRef = none → ∃ e', setExt s e = .ok () e' ∧ e'.ext = s) := by
  refine ⟨?_, ?_, ?_, ?_⟩
  · intro h
    obtain ⟨x, hx⟩ := Option.ne_none_iff_exists'.1 h
    unfold setOrigin; rw [hx]
  · intro h
    obtain ⟨x, hx⟩ := Option.ne_none_iff_exists'.1 h
    unfold setExt; rw [hx]
  · intro h
    refine ⟨{ e with origin := some o }, ?_, rfl⟩
    unfold setOrigin; rw [h]
  · intro h
    unfold setExt
    rw [h]
    refine ⟨_, rfl, ?_⟩
    split
    · rfl
    · rename_i hs
      have hs : s = e.uuid := Classical.byContradiction fun hc => hs hc
      unfold Ident.ext
      rw [h, hs]; rfl

/-- C111: a reference is made once: whatever happens to the entity, and with whatever query, the same reference is given again -/
theorem make_ref_once (e : Ident) (q q' : String) (ops : List IOp) :
    (makeRef q' (irun ops (makeRef q e).2)).1 = (makeRef q e).1 := by
  have h0 : (makeRef q e).2.memo = some (makeRef q e).1 := by
    unfold makeRef
    split
    · rename_i r h; exact h
    · rfl
  have : ∀ (ops : List IOp) (e : Ident) r, e.memo = some r → (irun ops e).memo = some r := by
    intro ops
    induction ops with
    | nil => intro e r h; exact h
    | cons op ops ih =>
      intro e r h
      refine ih (istep e op) r ?_
      cases op with
      | origin o => simp only [istep, setOrigin]; split <;> exact h
      | map m f => simp only [istep, mapOrigin]; split <;> (try split) <;> exact h
      | ext s => simp only [istep, setExt]; split <;> simp only [Out.state] <;> (try split) <;> exact h
      | makeRef q => simp only [istep, makeRef, h]
  have h1 := this ops _ _ h0
  show (makeRef q' (irun ops (makeRef q e).2)).1 = _
  rw [makeRef, h1]

/-- C111: the reference names the entity (origin and external reference), if it is made with a query of the entity's origin and neither
changes afterwards -/
theorem make_ref_names_partial {e : Ident} (hm : e.memo = none) {o : String} (ho : e.origin = some o) (hx : e.extRef ≠ none)
    (ops : List IOp) (hops : NoMap ops) (q : String) :
    let e' := irun ops (makeRef o e).2
    (some (makeRef q e').1.1, (makeRef q e').1.2) = (e'.origin, e'.ext) := by
  intro e'
  have h1 : (makeRef q e').1 = (o, e.ext) := by
    rw [make_ref_once]
    unfold makeRef
    rw [hm]
  have h2 : (makeRef o e).2.origin = some o ∧ (makeRef o e).2.extRef ≠ none ∧ (makeRef o e).2.ext = e.ext := by
    unfold makeRef
    rw [hm]
    exact ⟨ho, hx, rfl⟩
  obtain ⟨-, -, h3, h4⟩ := identity_kept ops (makeRef o e).2
  rw [h1, show e'.origin = some o from h3 o hops h2.1, show e'.ext = _ from h4 h2.2.1, h2.2.2]

/-! ### concrete cases -/

example : (index none (run String.toLower [.get "Name" false (some (.str "Steel")), .set "other" (.str "x"), .get "comment" false none]
    (setItem String.toLower [("Name", .str "n")] "comment" (.str "mine"))) "comment").value? = some (.str "mine") := by decide +kernel
example : String.toLower "comment" = "comment" ∧ ¬"local_".toList <+: "comment".toList ∧
    Dict.get? ([("Name", .str "n")] : D) "comment" = none ∧
    ∀ op ∈ [Op.get "Name" false (some (.str "Steel")), .set "other" (.str "x"), .get "comment" false none],
      ¬Touches String.toLower "comment" op := by
  refine ⟨by decide +kernel, by decide +kernel, by decide +kernel, ?_⟩
  intro op h
  simp only [List.mem_cons, List.not_mem_nil, or_false] at h
  rcases h with rfl | rfl | rfl
  · simp [Touches]
  · simp only [Touches]; decide +kernel
  · simp [Touches]

/-- `ref['Comment'] = 'mine'` is not what `ref['Comment']` gives -/
theorem capital_not_read : (index (some (.str "theirs")) (setItem String.toLower [] "Comment" (.str "mine")) "Comment").value? =
    some (.str "theirs") := by decide +kernel

/-- a forced query hides the assigned value for good -/
theorem force_hides : let d := (getItem true (some (.str "theirs")) (setItem String.toLower [] "comment" (.str "mine")) "comment").2
    (index none d "comment").value? = some (.str "theirs") ∧ localItem (setItem String.toLower d "comment" (.str "mine")) "comment" =
      .str "theirs" := by decide +kernel

/-- looking up a reference can overwrite what the reference found has -/
theorem lookup_overwrites : let found := setItem String.toLower [] "foo" (.str "kept")
    localItem found "foo" = .str "kept" ∧ localItem (lookupItems String.toLower [("Foo", .str "new")] found) "foo" = .str "new" := by
  decide +kernel

example : hasProperty (lookupItems String.toLower [("foo", .str "new"), ("bar", .str "b")] [("foo", .str "kept")]) "foo" = true ∧
    localItem (lookupItems String.toLower [("foo", .str "new"), ("bar", .str "b")] [("foo", .str "kept")]) "foo" = .str "kept" ∧
    localItem (lookupItems String.toLower [("foo", .str "new"), ("bar", .str "b")] [("foo", .str "kept")]) "bar" = .str "b" := by
  decide +kernel

/-- a flow reference with two items -/
def exRef : Ref := { etype := some "flow", origin := "a.b", ext := "f1", uuid := some "1234", d := [("Name", .str "Water"), ("local_x", .str "y")] }

def okOf : Except Err Ref → Option Ref
  | .ok r => some r
  | .error _ => none

example : exRef.d.keys.Nodup ∧ ∀ k ∈ exRef.d.keys, k ∉ reserved := by decide +kernel
example : (okOf (fromJson (serialize exRef))).map Ref.entityType = some "flow" ∧
    (okOf (fromJson (serialize exRef))).map (fun r => localItem r.d "x") = some (.str "y") := by decide +kernel

/-- the uuid of a reference is not read -/
theorem ref_uuid_lost : exRef.getUuid = "1234" ∧ (okOf (fromJson (serialize exRef))).map Ref.getUuid = some "f1" := by decide +kernel

/-- the type of a CatalogRef is not written -/
theorem catalog_type_lost : let r : Ref := { asgn := some "flow", origin := "a.b", ext := "f1" }
    r.entityType = "flow" ∧ (okOf (fromJson (serialize r))).map Ref.entityType = some "unknown" := by decide +kernel

/-- merging references replaces the value of the first -/
theorem merge_ref_overwrites : let a : Ref := { etype := some "flow", origin := "o", ext := "f", d := [("Name", .str "left")] }
    let b : Ref := { etype := some "flow", origin := "o", ext := "f", d := [("Name", .str "right")] }
    localItem (mergeRef a b).state.d "Name" = .str "right" := by decide +kernel

def exE1 : Ent := { etype := "flow", ext := "f", props := [("Name", .str "n"), ("CasNumber", .str "1")] }
def exE2 : Ent := { etype := "flow", ext := "f", props := [("Name", .str "m"), ("Comment", .str "2")] }

def exE3 : Ent := { etype := "flow", ext := "f", props := [("Name", .str "m"), ("casnumber", .str "2")] }

/-- merging entities replaces a property that is spelled otherwise -/
theorem merge_entity_overwrites : LDict.getItem String.toLower exE1.props "CasNumber" = some (.str "1") ∧
    LDict.getItem String.toLower (mergeEnt String.toLower exE1 exE3).state.props "CasNumber" = some (.str "2") ∧
      LDict.getItem String.toLower (mergeEnt String.toLower exE1 exE3).state.props "Name" = some (.str "n") := by decide +kernel

example : LDict.Distinct String.toLower exE1.props ∧ LDict.Distinct String.toLower exE2.props := by
  unfold LDict.Distinct; decide +kernel
example : ∀ k ∈ exE2.props.map (·.1), ∀ k' ∈ exE1.props.map (·.1), k.toLower = k'.toLower → k = k' := by decide +kernel
example : LDict.getItem String.toLower (mergeEnt String.toLower exE1 exE2).state.props "comment" = some (.str "2") := by decide +kernel

/-- merging a flow with a copy that has one more quantity raises -/
theorem merge_flow_raises : let a : Ent := { etype := "flow", ext := "f", quantities := ["mass"] }
    let b : Ent := { etype := "flow", ext := "f", quantities := ["mass", "energy"] }
    (mergeFlow String.toLower a b).error? = some .attributeError := by decide +kernel

/-- the reference does not follow the external reference of the entity, nor the query -/
theorem make_ref_stale : let e : Ident := { etype := "flow", uuid := "u", origin := some "o" }
    let e' := irun [.makeRef "o", .ext "f1"] e
    e'.ext = "f1" ∧ (makeRef "o" e').1 = ("o", "u") ∧ (makeRef "other" e').1 = ("o", "u") := by decide +kernel

example : let e : Ident := { etype := "flow", uuid := "u", origin := some "o", extRef := some "f1" }
    let e' := irun [.ext "f2", .origin "p", .makeRef "q"] (makeRef "o" e).2
    e'.ext = "f1" ∧ e'.origin = some "o" ∧ (makeRef "z" e').1 = ("o", "f1") := by decide +kernel

end RefI
