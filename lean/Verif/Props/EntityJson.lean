import Verif.Model.EntityJson
import Verif.Props.FlowJson
import Verif.Props.LowerDict

/-!
C106: the flows and quantities of an archive that is written to a JSON file and read again.
-/

namespace EJ
variable {J : Type}

/-! ### specification -/

/-- `w` is what a reader gets for a property `v`: text and JSON values are the same, a set becomes a sorted list, a reference to
another entity becomes a dict, other objects become text -/
inductive Reads : PV J → PV J → Prop
  | str (s) : Reads (.str s) (.str s)
  | json (v) : Reads (.json v) (.json v)
  | list (l) : Reads (.list l) (.list l)
  | dict (o e t) : Reads (.dict o e t) (.dict o e t)
  | set {l m} : l.Perm m → m.Pairwise (· ≤ ·) → Reads (.set l) (.list m)
  | entity (o e t) : Reads (.entity o e t) (.dict o e t)
  | other (s) : Reads (.other s) (.str s)

/-- the property `x` of the entity read, for the value of the entity written: a property None is lost, or empty if every entity
has it -/
def ReadsOpt (standard : Prop) : Option (PV J) → Option (PV J) → Prop
  | none, w => w = none
  | some .none, w => (standard ∧ w = some (.str "")) ∨ (¬standard ∧ w = none)
  | some v, w => ∃ x, w = some x ∧ Reads v x

/-- the entity `e'` read is the entity `e` written -/
structure SameE (lower : String → String) (ref : String) (domesticate : Bool) (keyToId : String → String) (e e' : Ent J) : Prop where
  kind : e'.kind = e.kind
  uuid : e'.uuid = e.uuid
  origin : e'.origin = some (if domesticate then ref else e.origin.getD ref)
  ext : e'.ext = if keyToId e.ext = e.uuid then e.ext else e.uuid
  unit : e'.unit = e.unit
  props : ∀ x, ReadsOpt (lower x ∈ (fields e.kind).map lower) (LDict.getItem lower e.props x) (LDict.getItem lower e'.props x)
  ref : e.kind = .flow → e'.chars.ref = e.chars.ref
  quantities : e.kind = .flow → ∀ q, q ∈ e'.chars.chars.keys ↔ q ∈ e.chars.chars.keys
  cf : e.kind = .flow → ∀ q l, Flo.cf e'.chars q l = Flo.cf e.chars q l

/-- the same content of a JSON object: properties and characterisations in any order -/
structure SameJ (a b : JE J) : Prop where
  entityId : a.entityId = b.entityId
  kind : a.kind = b.kind
  externalId : a.externalId = b.externalId
  origin : a.origin = b.origin
  unit : a.unit = b.unit
  props : a.props.Perm b.props
  chars : Flo.SameF a.chars b.chars

/-- the file has the entities `l`, in any order -/
def SameL (l m : List (JE J)) : Prop := ∃ l', l.Perm l' ∧ List.Forall₂ SameJ l' m

/-- entities made by the constructor, then changed by assigning properties, the external reference and characterisations -/
inductive Made (lower : String → String) : Ent J → Prop
  | make {k u o unit l e} : make lower k u o unit l = .ok e → Made lower e
  | set {e n v e'} : Made lower e → setProp lower e n v = .ok e' → Made lower e'
  | ref {e} (s) : Made lower e → e.extRef = none → Made lower { e with extRef := some s }
  | chars {e st} : Made lower e → Flo.Reach st → Made lower { e with chars := st }

/-- names of properties that the reader takes for something else -/
def reserved : List String :=
  ["tags", "external_ref", "self", "entity_uuid", "entity_type", "local_unit", "characterizations"]

/-- no property has a name that the reader takes for something else -/
def Writable (e : Ent J) : Prop := ∀ kv ∈ e.props, kv.1 ∉ reserved

/-! ### entities -/

theorem setProp_ok {lower : String → String} {e e' : Ent J} {n : String} {v : PV J} (h : setProp lower e n v = .ok e') :
    lower n ∉ refused e.kind ∧ e' = { e with props := LDict.set lower e.props n v } := by
  unfold setProp at h
  split at h
  · cases h
  · cases h; rename_i h; exact ⟨h, rfl⟩

/-- what holds of every entity -/
structure Wf (lower : String → String) (e : Ent J) : Prop where
  distinct : LDict.Distinct lower e.props
  allowed : ∀ kv ∈ e.props, lower kv.1 ∉ refused e.kind
  fields : ∀ k ∈ fields e.kind, lower k ∈ e.props.map fun kv => lower kv.1
  chars : e.chars = {} ∨ Flo.Reach e.chars

theorem allowed_set {lower : String → String} {d : LDict.St String (PV J)} {k : String} {v : PV J} {bad : List String}
    (h : ∀ kv ∈ d, lower kv.1 ∉ bad) (hk : lower k ∉ bad) : ∀ kv ∈ LDict.set lower d k v, lower kv.1 ∉ bad := by
  intro kv hkv
  have := (LDict.set_keys d k v (lower kv.1)).1 (List.mem_map.2 ⟨kv, hkv, rfl⟩)
  rcases this with h' | h'
  · obtain ⟨p, hp, he⟩ := List.mem_map.1 h'
    rw [← he]; exact h p hp
  · rw [h']; exact hk

theorem setProps_spec {lower : String → String} (l : List (String × PV J)) : ∀ (e e' : Ent J), setProps lower l e = .ok e' →
    e' = { e with props := e'.props } ∧ (LDict.Distinct lower e.props → LDict.Distinct lower e'.props) ∧
      ((∀ kv ∈ e.props, lower kv.1 ∉ refused e.kind) → ∀ kv ∈ e'.props, lower kv.1 ∉ refused e.kind) := by
  induction l with
  | nil => intro e e' h; cases h; exact ⟨rfl, id, id⟩
  | cons kv l ih =>
    intro e e' h
    rw [setProps] at h
    cases h1 : setProp lower e kv.1 kv.2 with
    | error err => rw [h1] at h; cases h
    | ok e1 =>
      rw [h1] at h
      obtain ⟨hn, rfl⟩ := setProp_ok h1
      obtain ⟨h2, h3, h4⟩ := ih _ _ h
      exact ⟨h2, fun hd => h3 (LDict.distinct_set hd _ _), fun ha => h4 (allowed_set ha hn)⟩

/-- assigning properties with different names, in any order -/
theorem setProps_get {lower : String → String} (l : List (String × PV J)) : ∀ (e : Ent J),
    (l.map fun kv => lower kv.1).Nodup → (∀ kv ∈ l, lower kv.1 ∉ refused e.kind) →
    ∃ d, setProps lower l e = .ok { e with props := d } ∧
      (∀ kv ∈ l, ∀ x, lower kv.1 = lower x → LDict.getItem lower d x = some kv.2) ∧
      (∀ x, (∀ kv ∈ l, lower kv.1 ≠ lower x) → LDict.getItem lower d x = LDict.getItem lower e.props x) := by
  induction l with
  | nil => intro e _ _; exact ⟨e.props, rfl, by simp, fun _ _ => rfl⟩
  | cons kv l ih =>
    intro e hn ha
    have hn' := List.nodup_cons.1 (by simpa using hn : (lower kv.1 :: l.map fun kv => lower kv.1).Nodup)
    have h1 : setProp lower e kv.1 kv.2 = .ok { e with props := LDict.set lower e.props kv.1 kv.2 } := by
      unfold setProp; rw [if_neg (ha kv List.mem_cons_self)]
    obtain ⟨d, h2, h3, h4⟩ := ih { e with props := LDict.set lower e.props kv.1 kv.2 } hn'.2
      fun kv' h => ha kv' (List.mem_cons_of_mem _ h)
    refine ⟨d, ?_, ?_, ?_⟩
    · rw [setProps, h1]; exact h2
    · intro kv' hkv' x hx
      rcases List.mem_cons.1 hkv' with rfl | hkv'
      · rw [h4 x, LDict.getItem_set, if_pos hx]
        intro kv' h hc
        exact hn'.1 (List.mem_map.2 ⟨kv', h, hc.trans hx.symm⟩)
      · exact h3 kv' hkv' x hx
    · intro x hx
      rw [h4 x fun kv' h => hx kv' (List.mem_cons_of_mem _ h), LDict.getItem_set, if_neg (hx kv List.mem_cons_self)]

theorem contains_iff {V : Type} {lower : String → String} {d : LDict.St String V} {k : String} :
    LDict.contains lower d k = true ↔ lower k ∈ d.map fun p => lower p.1 := by
  unfold LDict.contains
  simp [List.any_eq_true, List.mem_map]

theorem getItem_isSome {V : Type} {lower : String → String} {d : LDict.St String V} {k : String}
    (h : lower k ∈ d.map fun p => lower p.1) : ∃ v, LDict.getItem lower d k = some v := by
  cases hg : LDict.getItem lower d k with
  | some v => exact ⟨v, rfl⟩
  | none =>
    unfold LDict.getItem at hg
    rw [Option.map_eq_none_iff, List.find?_eq_none] at hg
    obtain ⟨p, hp, he⟩ := List.mem_map.1 h
    exact absurd (decide_eq_true he) (hg p hp)

theorem getItem_mem {V : Type} {lower : String → String} {d : LDict.St String V} {x : String} {v : V}
    (h : LDict.getItem lower d x = some v) : ∃ k, (k, v) ∈ d ∧ lower k = lower x := by
  unfold LDict.getItem at h
  rw [Option.map_eq_some_iff] at h
  obtain ⟨p, hp, rfl⟩ := h
  exact ⟨p.1, List.mem_of_find?_eq_some hp, by simpa using List.find?_some hp⟩

theorem getItem_of_mem {V : Type} {lower : String → String} {d : LDict.St String V} (hd : LDict.Distinct lower d) {kv : String × V}
    (h : kv ∈ d) {x : String} (hx : lower kv.1 = lower x) : LDict.getItem lower d x = some kv.2 := by
  obtain ⟨v, hv⟩ := getItem_isSome (lower := lower) (d := d) (k := x) (List.mem_map.2 ⟨kv, h, hx⟩)
  obtain ⟨k, hk, he⟩ := getItem_mem hv
  have := List.inj_on_of_nodup_map hd hk h (he.trans hx.symm)
  rw [hv, ← this]

/-- the loop over the fields -/
theorem addFields_spec {lower : String → String} (ks : List String) : ∀ (e : Ent J),
    ∃ d, addFields lower ks e = { e with props := d } ∧
      (∀ x, LDict.getItem lower d x = if LDict.getItem lower e.props x = none ∧ lower x ∈ ks.map lower then some (.str "")
        else LDict.getItem lower e.props x) ∧
      (LDict.Distinct lower e.props → LDict.Distinct lower d) ∧
      (∀ y, y ∈ d.map (fun p => lower p.1) ↔ y ∈ e.props.map (fun p => lower p.1) ∨ y ∈ ks.map lower) := by
  intro e
  refine ⟨_, rfl, ?_⟩
  generalize e.props = d
  induction ks generalizing d with
  | nil => exact ⟨fun x => by simp, id, by simp⟩
  | cons k ks ih =>
    rw [List.foldl_cons]
    obtain ⟨h1, h2, h3⟩ := ih (if LDict.contains lower d k then d else LDict.set lower d k (.str ""))
    by_cases hc : LDict.contains lower d k = true
    · simp only [hc, if_true] at h1 h2 h3 ⊢
      refine ⟨?_, h2, ?_⟩
      · intro x
        rw [h1 x]
        by_cases hx : lower x = lower k
        · obtain ⟨v, hv⟩ := getItem_isSome (hx ▸ contains_iff.1 hc : lower x ∈ d.map fun p => lower p.1)
          simp [hv]
        · simp [hx]
      · intro y
        rw [h3 y]
        simp only [List.map_cons, List.mem_cons]
        constructor
        · rintro (h | h)
          · exact .inl h
          · exact .inr (.inr h)
        · rintro (h | rfl | h)
          · exact .inl h
          · exact .inl (contains_iff.1 hc)
          · exact .inr h
    · simp only [hc, Bool.false_eq_true, if_false] at h1 h2 h3 ⊢
      refine ⟨?_, fun hd => h2 (LDict.distinct_set hd _ _), ?_⟩
      · intro x
        rw [h1 x, LDict.getItem_set]
        by_cases hx : lower k = lower x
        · have : LDict.getItem lower d x = none :=
            LDict.getItem_none fun h => hc (contains_iff.2 (hx ▸ h))
          simp [hx, this]
        · have hx' : ¬lower x = lower k := fun h => hx h.symm
          simp [hx, hx']
      · intro y
        rw [h3 y, LDict.set_keys]
        simp only [List.map_cons, List.mem_cons, or_assoc]

theorem wf_of_made {lower : String → String} (hl : lower "Name" ≠ lower "Comment")
    (hf : ∀ k, ∀ f ∈ fields k, lower f ∉ refused k) {e : Ent J} (h : Made lower e) : Wf lower e := by
  induction h with
  | @make k u o unit l e h =>
    unfold make at h
    split at h
    · cases h
    · simp only at h
      split at h
      · cases h
      · rename_i e1 h1
        split at h
        · cases h
        · cases h
          obtain ⟨h2, h3, h4⟩ := setProps_spec _ _ _ h1
          obtain ⟨d, h5, h6, h7, h8⟩ := addFields_spec (lower := lower) (fields k) e1
          have hk : e1.kind = k := by rw [h2]
          rw [h5]
          refine ⟨h7 (h3 (by simpa [LDict.Distinct] using hl)), ?_, ?_, .inl (by rw [h2])⟩
          · intro kv hkv
            rcases (h8 _).1 (List.mem_map.2 ⟨kv, hkv, rfl⟩) with h' | h'
            · obtain ⟨p, hp, he⟩ := List.mem_map.1 h'
              rw [← he]
              have := h4 (by
                intro kv hkv
                simp only [List.mem_cons, List.not_mem_nil, or_false] at hkv
                rcases hkv with rfl | rfl
                · exact hf k _ (by cases k <;> simp [fields])
                · exact hf k _ (by cases k <;> simp [fields])) p hp
              simpa [hk] using this
            · obtain ⟨f, hff, he⟩ := List.mem_map.1 h'
              rw [← he]
              simpa [hk] using hf k f hff
          · intro f hff
            exact (h8 _).2 (.inr (List.mem_map.2 ⟨f, by simpa [hk] using hff, rfl⟩))
  | @set e n v e' _ h ih =>
    obtain ⟨hn, rfl⟩ := setProp_ok h
    exact ⟨LDict.distinct_set ih.distinct _ _, allowed_set ih.allowed hn,
      fun k hk => (LDict.set_keys _ _ _ _).2 (.inl (ih.fields k hk)), ih.chars⟩
  | ref s _ _ ih => exact ⟨ih.distinct, ih.allowed, ih.fields, ih.chars⟩
  | chars _ h ih => exact ⟨ih.distinct, ih.allowed, ih.fields, .inr h⟩

/-! ### one entity -/

theorem reads_ofJV {v : PV J} {w : JV J} (h : toJV v = some w) : Reads v (ofJV w) := by
  cases v with
  | none => cases h
  | str s => cases h; exact .str s
  | json s => cases h; exact .json s
  | list s => cases h; exact .list s
  | dict o e t => cases h; exact .dict o e t
  | entity o e t => cases h; exact .entity o e t
  | other s => cases h; exact .other s
  | set l =>
    cases h
    exact .set (List.perm_insertionSort _ _).symm (List.pairwise_insertionSort _ _)

theorem toJV_none {v : PV J} (h : toJV v = none) : v = .none := by
  cases v <;> simp_all [toJV]

/-- the properties of the entity read -/
theorem make_spec {lower : String → String} {e : Ent J} (hw : Wf lower e) (hr : Writable e) (hl : lower "Name" ≠ lower "Comment")
    {p : List (String × JV J)} {dom : Bool} (hp : (serializeE dom e).props.Perm p) (o : Option String) :
    (p.any (·.1 = "tags")) = false ∧
    ∃ d, make lower e.kind e.uuid o e.unit (p.map fun kv => (kv.1, ofJV kv.2)) =
        .ok { kind := e.kind, uuid := e.uuid, origin := o, unit := e.unit, props := d } ∧
      ∀ x, ReadsOpt (lower x ∈ (fields e.kind).map lower) (LDict.getItem lower e.props x) (LDict.getItem lower d x) := by
  -- what the file has
  have hmem : ∀ kw : String × JV J, kw ∈ p ↔ ∃ v, (kw.1, v) ∈ e.props ∧ toJV v = some kw.2 := by
    intro kw
    rw [← hp.mem_iff]
    simp only [serializeE, List.mem_filterMap]
    constructor
    · rintro ⟨kv, hkv, h⟩
      split at h
      · cases h
      · rw [Option.map_eq_some_iff] at h
        obtain ⟨w, hw', rfl⟩ := h
        exact ⟨kv.2, hkv, hw'⟩
    · rintro ⟨v, hv, h⟩
      refine ⟨_, hv, ?_⟩
      have hc : kw.1 ≠ "characterizations" := fun hc => hr _ hv (by rw [hc]; decide)
      simp [hc, h]
  have hkeys : ∀ kw ∈ p, kw.1 ∉ reserved := by
    intro kw h
    obtain ⟨v, hv, -⟩ := (hmem kw).1 h
    exact hr _ hv
  have hnd : (p.map fun kv => lower kv.1).Nodup := by
    refine ((hp.map fun kv => lower kv.1).nodup_iff).1 ?_
    refine hw.distinct.sublist ?_
    simp only [serializeE]
    generalize e.props = d
    induction d with
    | nil => exact .slnil
    | cons kv d ih =>
      rw [List.filterMap_cons]
      split
      · exact .cons _ ih
      · rename_i w hw'
        split at hw'
        · cases hw'
        · rw [Option.map_eq_some_iff] at hw'
          obtain ⟨_, _, rfl⟩ := hw'
          exact .cons_cons _ ih
  refine ⟨?_, ?_⟩
  · rw [List.any_eq_false]
    intro kw h
    have := hkeys kw h
    simp only [decide_eq_true_eq]
    exact fun hc => this (by rw [hc]; decide)
  have hfilter : (p.map fun kv => (kv.1, ofJV kv.2)).filter
      (fun kv => kv.1 ≠ "external_ref" ∧ ¬(e.kind = .flow ∧ kv.1 = "local_unit")) = p.map fun kv => (kv.1, ofJV kv.2) := by
    rw [List.filter_eq_self]
    intro kv h
    obtain ⟨kw, hkw, rfl⟩ := List.mem_map.1 h
    have := hkeys kw hkw
    have h1 : kw.1 ≠ "external_ref" := fun hc => this (by rw [hc]; decide)
    have h2 : kw.1 ≠ "local_unit" := fun hc => this (by rw [hc]; decide)
    simp [h1, h2]
  have hfind : (p.map fun kv => (kv.1, ofJV kv.2)).find? (·.1 = "external_ref") = none := by
    rw [List.find?_eq_none]
    intro kv h
    obtain ⟨kw, hkw, rfl⟩ := List.mem_map.1 h
    have := hkeys kw hkw
    simp only [decide_eq_true_eq]
    exact fun hc => this (by rw [hc]; decide)
  have hany : (p.map fun kv => (kv.1, ofJV kv.2)).any
      (fun kv => kv.1 = "self" ∨ kv.1 = "entity_uuid" ∨ kv.1 = "entity_type") = false := by
    rw [List.any_eq_false]
    intro kv h
    obtain ⟨kw, hkw, rfl⟩ := List.mem_map.1 h
    have := hkeys kw hkw
    simp only [decide_eq_true_eq]
    rintro (hc | hc | hc) <;> exact this (by rw [hc]; decide)
  have hlu : (p.map fun kv => (kv.1, ofJV kv.2)).any (·.1 = "local_unit") = false := by
    rw [List.any_eq_false]
    intro kv h
    obtain ⟨kw, hkw, rfl⟩ := List.mem_map.1 h
    have := hkeys kw hkw
    simp only [decide_eq_true_eq]
    exact fun hc => this (by rw [hc]; decide)
  obtain ⟨d, h1, h2, h3⟩ := setProps_get (lower := lower) (p.map fun kv => (kv.1, ofJV kv.2))
    { kind := e.kind, uuid := e.uuid, origin := o, unit := e.unit, props := [("Name", .str ""), ("Comment", .str "")] }
    (by rw [List.map_map]; exact hnd)
    (by
      intro kv h
      obtain ⟨kw, hkw, rfl⟩ := List.mem_map.1 h
      obtain ⟨v, hv, -⟩ := (hmem kw).1 hkw
      exact hw.allowed (kw.1, v) hv)
  obtain ⟨d', h4, h5, -, -⟩ := addFields_spec (lower := lower) (fields e.kind)
    { kind := e.kind, uuid := e.uuid, origin := o, unit := e.unit, props := d : Ent J }
  refine ⟨d', ?_, ?_⟩
  · unfold make
    rw [hany]
    simp only [Bool.false_eq_true, if_false]
    rw [hfind, hfilter, hlu]
    simp only [h1, Bool.false_eq_true, and_false, if_false]
    rw [h4]
  · intro x
    have h5 := h5 x
    simp only at h5 h3
    cases hx : LDict.getItem lower e.props x with
    | none =>
      have hno : ∀ kv ∈ e.props, lower kv.1 ≠ lower x := by
        intro kv hkv hc
        rw [getItem_of_mem hw.distinct hkv hc] at hx
        cases hx
      have hf : lower x ∉ (fields e.kind).map lower := by
        intro hc
        obtain ⟨f, hff, he⟩ := List.mem_map.1 hc
        obtain ⟨kv, hkv, he'⟩ := List.mem_map.1 (hw.fields f hff)
        exact hno kv hkv (he'.trans he)
      show LDict.getItem lower d' x = none
      rw [h5, if_neg fun h => hf h.2, h3 x]
      · have hN : lower x ≠ lower "Name" := fun hc => hf (hc ▸ List.mem_map.2 ⟨_, by cases e.kind <;> simp [fields], rfl⟩)
        have hC : lower x ≠ lower "Comment" := fun hc => hf (hc ▸ List.mem_map.2 ⟨_, by cases e.kind <;> simp [fields], rfl⟩)
        exact LDict.getItem_none (by simp [hN, hC])
      · intro kv hkv
        obtain ⟨kw, hkw, rfl⟩ := List.mem_map.1 hkv
        obtain ⟨v, hv, -⟩ := (hmem kw).1 hkw
        exact hno (kw.1, v) hv
    | some v =>
      obtain ⟨k, hk, hkx⟩ := getItem_mem hx
      cases hj : toJV v with
      | some w =>
        have h6 := h2 (k, ofJV w) (List.mem_map.2 ⟨(k, w), (hmem (k, w)).2 ⟨v, hk, hj⟩, rfl⟩) x hkx
        have : ∃ y, LDict.getItem lower d' x = some y ∧ Reads v y := by
          refine ⟨_, ?_, reads_ofJV hj⟩
          rw [h5, if_neg (by rw [h6]; simp), h6]
        cases v <;> first | exact this | (cases hj)
      | none =>
        have := toJV_none hj
        subst this
        have hno : ∀ kv ∈ p.map fun kv => (kv.1, ofJV kv.2), lower kv.1 ≠ lower x := by
          intro kv hkv hc
          obtain ⟨kw, hkw, rfl⟩ := List.mem_map.1 hkv
          obtain ⟨v', hv', hj'⟩ := (hmem kw).1 hkw
          have := getItem_of_mem hw.distinct hv' hc
          rw [hx] at this
          cases this
          cases hj'
        have h6 := h3 x hno
        show _ ∨ _
        by_cases hf : lower x ∈ (fields e.kind).map lower
        · left
          refine ⟨hf, ?_⟩
          rw [h5]
          by_cases hn : LDict.getItem lower d x = none
          · rw [if_pos ⟨hn, hf⟩]
          · rw [if_neg fun h => hn h.1]
            rw [h6] at hn ⊢
            obtain ⟨v, hv⟩ := Option.ne_none_iff_exists'.1 hn
            obtain ⟨k', hk', -⟩ := getItem_mem hv
            simp only [List.mem_cons, Prod.mk.injEq, List.not_mem_nil, or_false] at hk'
            rw [hv]
            rcases hk' with ⟨-, h⟩ | ⟨-, h⟩ <;> rw [h]
        · right
          refine ⟨hf, ?_⟩
          rw [h5, if_neg fun h => hf h.2, h6]
          have hN : lower x ≠ lower "Name" := fun hc => hf (hc ▸ List.mem_map.2 ⟨_, by cases e.kind <;> simp [fields], rfl⟩)
          have hC : lower x ≠ lower "Comment" := fun hc => hf (hc ▸ List.mem_map.2 ⟨_, by cases e.kind <;> simp [fields], rfl⟩)
          exact LDict.getItem_none (by simp [hN, hC])

/-- what is required of an entity to be written and read: see `archive_reload_partial` -/
structure Good (lower : String → String) (keyToId : String → String) (e : Ent J) : Prop where
  made : Made lower e
  writable : Writable e
  plain : e.kind = .flow → Flo.Reach e.chars ∧ Flo.Plain e.chars
  key : keyToId e.uuid = e.uuid
  keyQ : e.kind = .flow → ∀ q ∈ e.chars.chars.keys, keyToId q = q

theorem entityFromJson_spec {lower : String → String} (hl : lower "Name" ≠ lower "Comment")
    (hf : ∀ k, ∀ f ∈ fields k, lower f ∉ refused k) {keyToId : String → String} {e : Ent J} (hg : Good lower keyToId e)
    {dom : Bool} {j : JE J} (hj : SameJ (serializeE dom e) j) {a : Archive J} (hnew : e.uuid ∉ a.ents.keys)
    (hq : e.kind = .flow → ∀ q ∈ e.chars.chars.keys, q ∈ a.ents.keys) :
    ∃ e', entityFromJson lower keyToId j a = .ok () { a with ents := a.ents.set e.uuid e' } ∧ SameE lower a.ref dom keyToId e e' := by
  have hid : j.entityId = e.uuid := hj.entityId.symm
  have hkind : j.kind = e.kind := hj.kind.symm
  have hext : j.externalId = e.ext := hj.externalId.symm
  have hor : j.origin = if dom then none else e.origin := hj.origin.symm
  have hunit : j.unit = e.unit := hj.unit.symm
  obtain ⟨ht, d, hm, hd⟩ := make_spec (wf_of_made hl hf hg.made) hg.writable hl hj.props (some (j.origin.getD a.ref))
  have hhas : a.ents.has e.uuid = false := by
    cases h : a.ents.has e.uuid with
    | false => rfl
    | true =>
      exact absurd ((Dict.has_iff _ _).1 h) hnew
  have horig : (some (j.origin.getD a.ref)) = some (if dom then a.ref else e.origin.getD a.ref) := by
    rw [hor]; cases dom <;> simp
  obtain ⟨st, hst, h1, h2, h3⟩ : ∃ st, (if j.kind = .flow then Flo.loadFlow (fun q => a.ents.has (keyToId q)) true j.chars
        else .ok () {} : Out (Flo.State String) Flo.Err Unit) = .ok () st ∧
      (e.kind = .flow → st.ref = e.chars.ref) ∧ (e.kind = .flow → ∀ q, q ∈ st.chars.keys ↔ q ∈ e.chars.chars.keys) ∧
      (e.kind = .flow → ∀ q l, Flo.cf st q l = Flo.cf e.chars q l) := by
    by_cases hk : e.kind = .flow
    · obtain ⟨hre, hpl⟩ := hg.plain hk
      have hch : Flo.SameF (Flo.serializeF true true e.chars) j.chars := by
        have := hj.chars
        simp only [serializeE, if_pos hk] at this
        exact this
      obtain ⟨st, h1, h2, h3, h4⟩ := Flo.flow_reload_partial hre hpl (fun q => a.ents.has (keyToId q))
        (fun q hq' => by
          rw [hg.keyQ hk q hq', Dict.has_iff]
          exact hq hk q hq') true j.chars hch
      refine ⟨st, ?_, fun _ => h2, fun _ => h3, fun _ => h4⟩
      rw [hkind, if_pos hk]; exact h1
    · refine ⟨{}, ?_, fun h => absurd h hk, fun h => absurd h hk, fun h => absurd h hk⟩
      rw [hkind, if_neg hk]
  unfold entityFromJson
  rw [ht]
  simp only [Bool.false_eq_true, if_false, hst]
  rw [hid, hkind, hunit, hm]
  simp only [hhas, Bool.false_eq_true, if_false, hext]
  by_cases hk : keyToId e.ext = e.uuid
  · by_cases he : e.ext = e.uuid
    · refine ⟨_, by rw [if_pos hk, if_pos he], ?_⟩
      exact ⟨rfl, rfl, horig, by rw [if_pos hk, he]; rfl, rfl, hd, h1, h2, h3⟩
    · refine ⟨_, by rw [if_pos hk, if_neg he], ?_⟩
      exact ⟨rfl, rfl, horig, by rw [if_pos hk]; rfl, rfl, hd, h1, h2, h3⟩
  · refine ⟨_, by rw [if_neg hk], ?_⟩
    exact ⟨rfl, rfl, horig, by rw [if_neg hk]; rfl, rfl, hd, h1, h2, h3⟩

/-! ### the archive -/

theorem loadAll_spec {lower : String → String} (hl : lower "Name" ≠ lower "Comment")
    (hf : ∀ k, ∀ f ∈ fields k, lower f ∉ refused k) {keyToId : String → String} {dom : Bool} {es : List (Ent J)} {js : List (JE J)}
    (hjs : List.Forall₂ (fun e j => SameJ (serializeE dom e) j) es js) : ∀ (a : Archive J), (es.map Ent.uuid).Nodup →
    (∀ e ∈ es, Good lower keyToId e) → (∀ e ∈ es, e.uuid ∉ a.ents.keys) →
    (∀ e ∈ es, e.kind = .flow → ∀ q ∈ e.chars.chars.keys, q ∈ a.ents.keys) →
    ∃ a', loadAll lower keyToId js a = .ok () a' ∧ a'.ref = a.ref ∧
      (∀ e ∈ es, ∃ e', a'.ents.get? e.uuid = some e' ∧ SameE lower a.ref dom keyToId e e') ∧
      (∀ u, (∀ e ∈ es, e.uuid ≠ u) → a'.ents.get? u = a.ents.get? u) := by
  induction hjs with
  | nil => intro a _ _ _ _; exact ⟨a, rfl, rfl, by simp, fun _ _ => rfl⟩
  | @cons e j es js h hjs ih =>
    intro a hn hg hnew hq
    have hn' := List.nodup_cons.1 (by simpa using hn : (e.uuid :: es.map Ent.uuid).Nodup)
    have hne : ∀ e' ∈ es, e'.uuid ≠ e.uuid := fun e' h' hc => hn'.1 (List.mem_map.2 ⟨e', h', hc⟩)
    obtain ⟨e', h1, h2⟩ := entityFromJson_spec hl hf (hg e List.mem_cons_self) h (hnew e List.mem_cons_self)
      (hq e List.mem_cons_self)
    obtain ⟨a', h3, h4, h5, h6⟩ := ih { a with ents := a.ents.set e.uuid e' } hn'.2
      (fun x hx => hg x (List.mem_cons_of_mem _ hx))
      (fun x hx hc => by
        rcases (Dict.mem_keys_set _ _ _ _).1 hc with h' | h'
        · exact hne x hx h'
        · exact hnew x (List.mem_cons_of_mem _ hx) h')
      (fun x hx hk q hqq => (Dict.mem_keys_set _ _ _ _).2 (.inr (hq x (List.mem_cons_of_mem _ hx) hk q hqq)))
    refine ⟨a', ?_, h4, ?_, ?_⟩
    · rw [loadAll, h1]; exact h3
    · intro x hx
      rcases List.mem_cons.1 hx with rfl | hx
      · refine ⟨e', ?_, h2⟩
        rw [h6 _ hne]
        exact Dict.get?_set_self _ _ _
      · exact h5 x hx
    · intro u hu
      rw [h6 u fun x hx => hu x (List.mem_cons_of_mem _ hx)]
      exact Dict.get?_set_ne _ _ (hu e List.mem_cons_self)

theorem forall₂_of_sameL {l m : List (JE J)} {es : List (Ent J)} {dom : Bool} (hl : l = es.map (serializeE dom)) (h : SameL l m) :
    ∃ es' : List (Ent J), es.Perm es' ∧ List.Forall₂ (fun e j => SameJ (serializeE dom e) j) es' m := by
  obtain ⟨l', hp, hf⟩ := h
  subst hl
  obtain ⟨w, hw, hwm⟩ := List.perm_comp_forall₂ hp hf
  have : Relation.Comp (List.Forall₂ fun e j => SameJ (serializeE dom e) j) List.Perm es m :=
    ⟨w, List.forall₂_map_left_iff.1 hw, hwm⟩
  rw [List.forall₂_comp_perm_eq_perm_comp_forall₂] at this
  exact this

/-- the entities of one kind -/
theorem kind_list {a : Archive J} {lower keyToId : String → String} (hn : a.ents.keys.Nodup)
    (hkey : ∀ u e, a.ents.get? u = some e → e.uuid = u ∧ Good lower keyToId e) (k : Kind) :
    ∃ es : List (Ent J), (∀ dom, serializeA dom a k = es.map (serializeE dom)) ∧ (es.map Ent.uuid).Nodup ∧
      (∀ e, e ∈ es ↔ e.kind = k ∧ a.ents.get? e.uuid = some e) := by
  refine ⟨(a.ents.filter fun ue => decide (ue.2.kind = k)).map (·.2), fun dom => ?_, ?_, ?_⟩
  · unfold serializeA; rw [List.map_map]; rfl
  · rw [List.map_map]
    have : (a.ents.filter fun ue => decide (ue.2.kind = k)).map (Ent.uuid ∘ (·.2)) =
        (a.ents.filter fun ue => decide (ue.2.kind = k)).map (·.1) := by
      apply List.map_congr_left
      intro ue h
      have := List.mem_filter.1 h
      exact (hkey ue.1 ue.2 (Dict.get?_eq_some_of_mem _ hn this.1)).1
    rw [this]
    exact List.Nodup.sublist (List.Sublist.map _ List.filter_sublist) hn
  · intro e
    simp only [List.mem_map, List.mem_filter, decide_eq_true_eq]
    constructor
    · rintro ⟨ue, ⟨h1, h2⟩, rfl⟩
      have hg := Dict.get?_eq_some_of_mem a.ents hn h1
      refine ⟨h2, ?_⟩
      rw [(hkey _ _ hg).1]; exact hg
    · rintro ⟨h1, h2⟩
      exact ⟨(e.uuid, e), ⟨Dict.mem_of_get?_eq_some _ h2, h1⟩, rfl⟩

/-- C106: an archive of flows and quantities that is written with all values and read again has the same entities, with the same
type, unit, origin (or the reference of the archive), properties, reference quantity and factors; the external reference is kept if
it leads to the uuid. Required: entities are stored under their uuid and not changed behind the API; no property has a name in
`reserved`; the quantities of a flow are in the archive; factors are as in C105. -/
theorem archive_reload_partial {lower : String → String} (hl : lower "Name" ≠ lower "Comment")
    (hf : ∀ k, ∀ f ∈ fields k, lower f ∉ refused k) {keyToId : String → String} {a : Archive J} (hn : a.ents.keys.Nodup)
    (hkey : ∀ u e, a.ents.get? u = some e → e.uuid = u ∧ Good lower keyToId e)
    (hq : ∀ u e, a.ents.get? u = some e → e.kind = .flow → ∀ q ∈ e.chars.chars.keys,
      ∃ e', a.ents.get? q = some e' ∧ e'.kind = .quantity)
    (dom : Bool) (ref : String) (qs fs : List (JE J)) (hqs : SameL (serializeA dom a .quantity) qs)
    (hfs : SameL (serializeA dom a .flow) fs) :
    ∃ a', loadArchive lower keyToId ref qs fs = .ok () a' ∧ a'.ref = ref ∧
      ∀ u, match a.ents.get? u with
        | none => a'.ents.get? u = none
        | some e => ∃ e', a'.ents.get? u = some e' ∧ SameE lower ref dom keyToId e e' := by
  obtain ⟨eq, hq1, hq2, hq3⟩ := kind_list hn hkey .quantity
  obtain ⟨ef, hf1, hf2, hf3⟩ := kind_list hn hkey .flow
  obtain ⟨eq', hpq, hqj⟩ := forall₂_of_sameL (hq1 dom) hqs
  obtain ⟨ef', hpf, hfj⟩ := forall₂_of_sameL (hf1 dom) hfs
  have hq3' : ∀ e, e ∈ eq' ↔ e.kind = .quantity ∧ a.ents.get? e.uuid = some e := fun e => (hpq.mem_iff).symm.trans (hq3 e)
  have hf3' : ∀ e, e ∈ ef' ↔ e.kind = .flow ∧ a.ents.get? e.uuid = some e := fun e => (hpf.mem_iff).symm.trans (hf3 e)
  obtain ⟨a1, h1, h2, h3, h4⟩ := loadAll_spec (lower := lower) hl hf (keyToId := keyToId) hqj { ref := ref }
    ((hpq.map _).nodup_iff.1 hq2) (fun e he => (hkey _ _ ((hq3' e).1 he).2).2) (fun _ _ h => by cases h)
    (fun e he hk => by rw [((hq3' e).1 he).1] at hk; cases hk)
  have hflowq : ∀ e ∈ ef', ∀ e' ∈ eq', e'.uuid ≠ e.uuid := by
    intro e he e' he' hc
    have h5 := (hf3' e).1 he
    have h6 := (hq3' e').1 he'
    rw [hc, h5.2] at h6
    have := Option.some.inj h6.2
    rw [← this, h5.1] at h6
    cases h6.1
  obtain ⟨a2, h5, h6, h7, h8⟩ := loadAll_spec (lower := lower) hl hf (keyToId := keyToId) hfj a1
    ((hpf.map _).nodup_iff.1 hf2) (fun e he => (hkey _ _ ((hf3' e).1 he).2).2)
    (fun e he hc => by
      obtain ⟨v, hv⟩ := (Dict.mem_keys_iff _ _).1 hc
      rw [h4 _ (hflowq e he)] at hv
      cases hv)
    (fun e he hk q hqq => by
      obtain ⟨e', he', hk'⟩ := hq _ _ ((hf3' e).1 he).2 hk q hqq
      have hu := (hkey _ _ he').1
      obtain ⟨e'', he'', -⟩ := h3 e' ((hq3' e').2 ⟨hk', by rw [hu]; exact he'⟩)
      exact (Dict.mem_keys_iff _ _).2 ⟨e'', by rw [← hu]; exact he''⟩)
  refine ⟨a2, ?_, h6.trans h2, ?_⟩
  · unfold loadArchive; rw [h1]; exact h5
  · intro u
    cases hu : a.ents.get? u with
    | none =>
      show a2.ents.get? u = none
      rw [h8 u, h4 u]
      · rfl
      · intro e he hc
        have := ((hq3' e).1 he).2
        rw [hc, hu] at this; cases this
      · intro e he hc
        have := ((hf3' e).1 he).2
        rw [hc, hu] at this; cases this
    | some e =>
      obtain ⟨hid, -⟩ := hkey u e hu
      subst hid
      show ∃ e', _
      cases hk : e.kind with
      | quantity =>
        obtain ⟨e', he', hs⟩ := h3 e ((hq3' e).2 ⟨hk, hu⟩)
        refine ⟨e', ?_, hs⟩
        rw [h8]
        · exact he'
        · intro x hx hc
          exact hflowq x hx e ((hq3' e).2 ⟨hk, hu⟩) hc.symm
      | flow =>
        obtain ⟨e', he', hs⟩ := h7 e ((hf3' e).2 ⟨hk, hu⟩)
        refine ⟨e', he', ?_⟩
        rw [h2] at hs
        exact hs

/-- written and read again, the value of a property does not change any more -/
theorem reads_twice {u v w : PV J} (h1 : Reads u v) (h2 : Reads v w) : w = v := by
  cases h1 <;> cases h2 <;> rfl

/-! ### concrete cases -/

/-- an archive that finds the entity 'f1' under the name 'ext1' -/
def exKey (s : String) : String := if s = "ext1" then "f1" else s

def exQ : Ent ℕ := { kind := .quantity, uuid := "q0", origin := some "test", unit := "kg",
                     props := [("Name", .str "Mass"), ("Comment", .str ""), ("UnitConversion", .json 1)] }

/-- a flow with an external reference, a set, a None, a tuple, and a factor for quantity q0 -/
def exF : Ent ℕ := { kind := .flow, uuid := "f1", origin := some "test", extRef := some "ext1",
                     props := [("Name", .str "Water"), ("Comment", .str ""), ("Synonyms", .set ["b", "a"]), ("CasNumber", .none),
                       ("Note", .none), ("Size", .other "(1, 2)"), ("Compartment", .str "")],
                     chars := Flo.new (some "q0") true }

/-- the result of the constructor as an option -/
def okOf : Except Err (Ent ℕ) → Option (Ent ℕ)
  | .ok e => some e
  | .error _ => none

theorem okOf_eq {x : Except Err (Ent ℕ)} {e : Ent ℕ} (h : okOf x = some e) : x = .ok e := by
  cases x with
  | ok e' => cases h; rfl
  | error _ => cases h

def exA : Archive ℕ := { ref := "test", ents := [("f1", exF), ("q0", exQ)] }

theorem exQ_made : Made String.toLower exQ :=
  .make (k := .quantity) (u := "q0") (o := some "test") (unit := "kg") (l := [("Name", .str "Mass"), ("UnitConversion", .json 1)])
    (okOf_eq (by decide +kernel))

theorem exF_made : Made String.toLower exF :=
  .chars (e := { exF with chars := {} }) (.make (k := .flow) (u := "f1") (o := some "test") (unit := "")
    (l := [("name", .str "Water"), ("Synonyms", .set ["b", "a"]),
    ("CasNumber", .none), ("Note", .none), ("Size", .other "(1, 2)"), ("external_ref", .str "ext1")]) (okOf_eq (by decide +kernel)))
    (.new (some "q0") true)

theorem exF_plain : Flo.Plain (Flo.new (some "q0") true) := by
  have h : (Flo.new (some "q0") true : Flo.State String).chars = [("q0", [(.glo, 1)])] := by decide +kernel
  have hc : ∀ q c, (Flo.new (some "q0") true : Flo.State String).chars.get? q = some c → c = [(.glo, 1)] := by
    intro q c hq
    have := Dict.mem_of_get?_eq_some _ hq
    rw [h] at this
    simp only [List.mem_cons, Prod.mk.injEq, List.not_mem_nil, or_false] at this
    exact this.2
  refine ⟨?_, ?_, ?_⟩
  · intro r hr
    have : (Flo.new (some "q0") true : Flo.State String).ref = some "q0" := by decide +kernel
    rw [this] at hr
    cases hr
    decide +kernel
  · intro q c hq _; rw [hc q c hq]; rfl
  · intro q c hq hg; rw [hc q c hq] at hg; simp [Dict.get?] at hg

example : Good String.toLower exKey exQ := ⟨exQ_made, by unfold Writable; decide +kernel, nofun, rfl, nofun⟩
example : Good String.toLower exKey exF := ⟨exF_made, by unfold Writable; decide +kernel, fun _ => ⟨.new (some "q0") true, exF_plain⟩, rfl, fun _ => by decide +kernel⟩
example : ("Name".toLower) ≠ "Comment".toLower := by decide +kernel
example : ∀ k, ∀ f ∈ fields k, f.toLower ∉ refused k := by intro k; cases k <;> decide +kernel

/-- the archive read from what `exA` writes -/
def exAgain (dom : Bool) (ref : String) (a : Archive ℕ) : Out (Archive ℕ) Err Unit :=
  loadArchive String.toLower exKey ref (serializeA dom a .quantity) (serializeA dom a .flow)

/-- property `x` of an entity -/
def look (a : Archive ℕ) (u x : String) : Option (PV ℕ) := (a.ents.get? u).bind fun e => LDict.getItem String.toLower e.props x

example : let a := (exAgain false "new" exA).state
    (exAgain false "new" exA).error? = none ∧ look a "f1" "Name" = some (.str "Water") ∧ look a "f1" "Synonyms" = some (.list ["a", "b"]) ∧
      look a "f1" "CasNumber" = some (.str "") ∧ look a "f1" "Note" = none ∧ look a "f1" "size" = some (.str "(1, 2)") ∧
      (a.ents.get? "f1").map Ent.ext = some "ext1" ∧ (a.ents.get? "f1").bind Ent.origin = some "test" ∧
      look a "q0" "UnitConversion" = some (.json 1) := by decide +kernel
example : ((exAgain true "new" exA).state.ents.get? "f1").bind Ent.origin = some "new" := by decide +kernel

/-- a property named 'tags' makes the file unreadable -/
theorem tags_unreadable : ∃ e : Ent ℕ, setProp String.toLower exQ "tags" (.list ["a"]) = .ok e ∧
    (exAgain false "new" { ref := "test", ents := [("q0", e)] }).error? = some .oldJson := by
  refine ⟨{ exQ with props := LDict.set String.toLower exQ.props "tags" (.list ["a"]) }, okOf_eq (by decide +kernel), ?_⟩
  decide +kernel

/-- so does one named 'external_ref': it becomes the external reference, which is then set again -/
theorem external_ref_unreadable : ∃ e : Ent ℕ, setProp String.toLower exQ "external_ref" (.str "x") = .ok e ∧
    (exAgain false "new" { ref := "test", ents := [("q0", e)] }).error? = some .propertyExists := by
  refine ⟨{ exQ with props := LDict.set String.toLower exQ.props "external_ref" (.str "x") }, okOf_eq (by decide +kernel), ?_⟩
  decide +kernel

/-- an external reference that does not lead to the uuid is replaced by the uuid: links to the entity written do not find the one
read -/
theorem bad_external_ref : ∃ e : Ent ℕ, Made String.toLower e ∧ e.ext = "my-ref" ∧
    (exAgain false "new" { ref := "test", ents := [("q0", e)] }).error? = none ∧
    ((exAgain false "new" { ref := "test", ents := [("q0", e)] }).state.ents.get? "q0").map Ent.ext = some "q0" := by
  refine ⟨{ exQ with extRef := some "my-ref" }, .ref _ exQ_made rfl, rfl, ?_, ?_⟩ <;> decide +kernel

/-- a flow whose quantity is not in the archive loses its factors and its reference quantity, without an error -/
theorem missing_quantity : (exAgain false "new" { ref := "test", ents := [("f1", exF)] }).error? = none ∧ exF.chars.ref = some "q0" ∧
    ((exAgain false "new" { ref := "test", ents := [("f1", exF)] }).state.ents.get? "f1").map (fun e => e.chars.ref) = some none := by
  decide +kernel

end EJ
