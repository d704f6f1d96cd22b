import Verif.Props.ArcFile

/-!
C193, C194: an archive is written to a file and opened again; descendants.
-/

namespace Arf

open ArcNames (State addName refOf namesMap Inv Reach)

set_option linter.unusedSectionVars false

variable {R S : Type} [DecidableEq R] [DecidableEq S] {valid : R → Bool} {localRef : S → R}

/-! ### lemmas -/

/-- in a table that can occur, references under which something is listed are valid -/
theorem reach_valid {st : State R S} (h : Reach valid localRef st) {k : R} {x : Option S} (hx : x ∈ st.at k) :
    valid k = true := by
  have hset : ∀ (st : State R S) (r : R) (l : List (Option S)) (src : Option S), valid r = true →
      (∀ k x, x ∈ st.at k → valid k = true) →
      ∀ k x, x ∈ State.at { names := st.names.set r l, source := src } k → valid k = true := by
    intro st r l src hr ih k x hx
    have := ArcNames.at_set { st with source := src } r k l
    rw [this] at hx
    split at hx
    · rename_i e; exact e ▸ hr
    · exact ih k x hx
  have hfin : ∀ (st : State R S) (r : R) (s : Option S) (w : Bool), valid r = true →
      (∀ k x, x ∈ st.at k → valid k = true) →
      ∀ k x, x ∈ (ArcNames.finish localRef r s w st).state.at k → valid k = true := by
    intro st r s w hr ih k x hx
    unfold ArcNames.finish at hx
    dsimp only at hx
    split at hx
    · exact hset st r _ _ hr ih k x hx
    · simp only [Out.state] at hx
      split at hx
      · exact hset st r _ _ hr ih k x hx
      · exact hset st r _ _ hr ih k x hx
  have hscan : ∀ (ks : List R) (st : State R S) (r : R) (s : S) (w : Bool), valid r = true → st.names.keys.Nodup →
      (∀ k x, x ∈ st.at k → valid k = true) →
      ∀ k x, x ∈ (ArcNames.scan localRef r s w ks st).state.at k → valid k = true := by
    intro ks
    induction ks with
    | nil => intro st r s w hr _ ih; exact hfin st r (some s) w hr ih
    | cons a ks ihk =>
      intro st r s w hr hn ih k x hx
      unfold ArcNames.scan at hx
      split at hx
      · rename_i ha
        split at hx
        · have hd : ∀ k x, x ∈ State.at { names := st.names.del a, source := st.source } k → valid k = true := by
            intro k x hx
            refine ih k x ?_
            simp only [State.at, Dict.get?_del _ hn] at hx ⊢
            split at hx
            · simp at hx
            · exact hx
          exact hset { names := st.names.del a, source := st.source } r _ _ hr hd k x hx
        · split at hx
          · exact ih k x hx
          · split at hx
            · exact ihk _ r s w hr (Dict.nodup_keys_set _ _ _ hn) (hset st a _ _ (ih a _ ha) ih) k x hx
            · exact ih k x hx
      · exact ihk st r s w hr hn ih k x hx
  have hadd : ∀ (st : State R S) (r : R) (s : Option S) (w : Bool), st.names.keys.Nodup →
      (∀ k x, x ∈ st.at k → valid k = true) →
      ∀ k x, x ∈ (addName valid localRef r s w st).state.at k → valid k = true := by
    intro st r s w hn ih k x hx
    unfold addName at hx
    by_cases hr : valid r = true
    · simp only [hr, Bool.not_true, Bool.false_eq_true, ↓reduceIte] at hx
      cases s with
      | none => exact hfin st r none w hr ih k x hx
      | some s => exact hscan _ st r s w hr hn ih k x hx
    · simp only [hr] at hx
      exact ih k x hx
  have hall : ∀ k x, x ∈ st.at k → valid k = true := by
    clear hx
    induction h with
    | new ref source hv => exact hadd _ ref source false (by simp [Dict.keys]) (by simp [State.at, Dict.get?])
    | @call op st hst ih =>
      have hn := (ArcNames.reach_inv hst).nodup
      cases op with
      | addName r s w => exact hadd st r s w hn ih
      | setSource r s => exact hadd { st with source := some s } r (some s) false hn ih
      | getSources n =>
        intro k x hx
        simp only [ArcNames.step, ArcNames.getSources] at hx
        split at hx
        · exact ih k x hx
        · rw [ArcNames.at_set] at hx
          split at hx
          · simp at hx
          · exact ih k x hx
  exact hall k x hx

theorem reach_add {a : Arch R S} (h : Reach valid localRef a.tbl) (r : R) (s : Option S) (w : Bool) :
    Reach valid localRef (add valid localRef r s w a).state.tbl := by
  have := Reach.call (.addName r s w) h
  simp only [ArcNames.step] at this
  unfold add
  cases hc : addName valid localRef r s w a.tbl <;> rw [hc] at this <;> exact this

theorem reach_set {a : Arch R S} (h : Reach valid localRef a.tbl) (r : R) (s : S) :
    Reach valid localRef (add valid localRef r (some s) false { a with tbl := { a.tbl with source := some s } }).state.tbl := by
  have := Reach.call (.setSource r s) h
  simp only [ArcNames.step, ArcNames.setSource] at this
  unfold add
  cases hc : addName valid localRef r (some s) false { a.tbl with source := some s } <;> rw [hc] at this <;>
    simp only [hc] <;> exact this

theorem add_dataRef (r : R) (s : Option S) (w : Bool) (a : Arch R S) :
    (add valid localRef r s w a).state.dataRef = a.dataRef := by
  unfold add
  cases addName valid localRef r s w a.tbl <;> rfl

/-- a new archive with a source -/
theorem create_eq {f : S} {r : R} (hv : valid r = true) (rf dr : Option R)
    (h : (rf.or dr).getD (localRef f) = r) :
    create valid localRef (some f) rf dr =
      .ok { tbl := { names := [(r, [some f])], source := some f }, dataRef := r } := by
  have key : add valid localRef r (some f) false
      { tbl := { names := [], source := some f }, dataRef := r } =
      .ok () { tbl := { names := [(r, [some f])], source := some f }, dataRef := r } := by
    unfold add addName
    simp only [hv, Bool.not_true, Bool.false_eq_true, ↓reduceIte, Dict.keys, List.map_nil, ArcNames.scan]
    have : (Dict.set ([] : Dict R (List (Option S))) r (PySet.add (State.at { names := [], source := some f } r) (some f)))
        = [(r, [some f])] := by
      simp [Dict.set, State.at, Dict.get?, PySet.add]
    unfold ArcNames.finish
    simp only [this]
    simp [refOf, Dict.keys, State.at, Dict.get?, PySet.add]
  unfold create
  cases rf with
  | some x =>
    simp at h; subst h; simp only [key]
  | none =>
    cases dr with
    | some x => simp at h; subst h; simp only [key]
    | none => simp at h; subst h; simp only [key]

theorem create_lists (f : S) (r : R) (dr : R) (k : R) (s : S) :
    Lists ({ tbl := { names := [(r, [some f])], source := some f }, dataRef := dr } : Arch R S) k s ↔ k = r ∧ s = f := by
  unfold Lists State.at
  simp only [Dict.get?]
  by_cases h : r = k
  · subst h; simp
  · simp [h, Ne.symm h]

theorem create_inv (f : S) (r : R) : Inv ({ names := [(r, [some f])], source := some f } : State R S) := by
  refine ⟨by simp [Dict.keys], ?_, by simp⟩
  intro s k k' h h'
  exact ((create_lists f r r k s).1 h).1.trans ((create_lists f r r k' s).1 h').1.symm

/-! ### C193 -/

/-- C193: opening a file whose own name, if the document lists it, is listed under the reference it is opened with:
the archive has that reference, the file is its source, and it lists what the document lists, and the file. -/
theorem open_ok {f : S} {r : R} {doc : Doc R S} (htop : doc.top = none) (hs : doc.Sound valid) (hv : valid r = true)
    (rf : Option R) (hr : (rf.or doc.init).getD (localRef f) = r) (hself : ∀ k, doc.Says k f → k = r) :
    ∃ b, fromOpen valid localRef rf f doc = .ok b ∧ ref localRef b = .ok r ∧ b.tbl.source = some f ∧ b.dataRef = r ∧
      ∀ k s, Lists b k s ↔ doc.Says k s ∨ (k = r ∧ s = f) := by
  obtain ⟨b, h1, -, h3, h4, -, h6, h7⟩ := load_agrees (valid := valid) (localRef := localRef) (doc := doc)
    (a := { tbl := { names := [(r, [some f])], source := some f }, dataRef := r }) (f := f) (d := r)
    (create_inv f r) rfl ((create_lists ..).2 ⟨rfl, rfl⟩) hv htop hs (by
      intro k k' s h h'
      obtain ⟨rfl, rfl⟩ := (create_lists ..).1 h'
      exact (hself k h).symm) (some f)
  refine ⟨b, ?_, h6, h3, h4, ?_⟩
  · unfold fromOpen
    rw [htop, Option.or_none]
    rw [create_eq hv rf doc.init hr]
    simp only [h1]
  · intro k s
    rw [h7, create_lists]
    by_cases e : f = s
    · subst e
      rw [if_pos rfl]
      constructor
      · exact fun h => .inr ⟨h, rfl⟩
      · rintro (h | h)
        · exact hself k h
        · exact h.1
    · rw [if_neg (by simpa using e)]
      simp [Ne.symm e]

/-- C193: a document that lists the file's own name under another reference cannot be opened: SourceAlreadyKnown (the
reference it is opened with is not the default one for the file). -/
theorem open_err {f : S} {r k : R} {doc : Doc R S} (htop : doc.top = none) (hs : ∀ k s, doc.Says k s → valid k = true)
    (hv : valid r = true) (rf : Option R) (hr : (rf.or doc.init).getD (localRef f) = r) (hl : r ≠ localRef f)
    (hk : doc.Says k f) (hne : k ≠ r) : fromOpen valid localRef rf f doc = .error .sourceAlreadyKnown := by
  have := load_disagrees (valid := valid) (localRef := localRef) (doc := doc)
    (a := { tbl := { names := [(r, [some f])], source := some f }, dataRef := r }) (f := f) (d := r)
    (create_inv f r) rfl ((create_lists ..).2 ⟨rfl, rfl⟩) hl hs
    ⟨k, r, f, Ne.symm hne, hk, .inl ((create_lists ..).2 ⟨rfl, rfl⟩)⟩ (some f)
  unfold fromOpen
  rw [htop, Option.or_none]
  rw [create_eq hv rf doc.init hr]
  cases hc : loadFromDict valid localRef doc (some f)
      { tbl := { names := [(r, [some f])], source := some f }, dataRef := r } with
  | ok u b => rw [hc] at this; simp [Out.error?] at this
  | err e b =>
    rw [hc] at this
    simp only [Out.error?, Option.some.injEq] at this
    subst this
    simp only [hc]

/-- `from_file` is opening without a reference -/
theorem fromFile_eq (f : S) {doc : Doc R S} (htop : doc.top = none) :
    fromFile valid localRef f doc = fromOpen valid localRef none f doc := by
  unfold fromFile fromOpen
  simp [htop]

/-- what is written lists what the archive lists -/
theorem says_serialize {a : Arch R S} (hn : a.tbl.names.keys.Nodup) (c : Bool) (k : R) (s : S) :
    (serialize c a).Says k s ↔ Lists a k s := by
  unfold Doc.Says serialize Lists State.at
  simp only [List.mem_map, Prod.mk.injEq, Prod.exists]
  constructor
  · rintro ⟨l, ⟨k', l', h1, rfl, rfl⟩, h2⟩
    have := Dict.get?_eq_some_of_mem _ hn h1
    rw [this]
    simpa using h2
  · intro h
    cases hg : a.tbl.names.get? k with
    | none => rw [hg] at h; simp at h
    | some l =>
      rw [hg] at h
      exact ⟨_, ⟨k, l, Dict.mem_of_get?_eq_some _ hg, rfl, rfl⟩, by simpa using h⟩

/-- the document of an archive is sound -/
theorem sound_serialize {a : Arch R S} (h : Reach valid localRef a.tbl) (c : Bool) : (serialize c a).Sound valid := by
  have hI := ArcNames.reach_inv h
  constructor
  · intro k k' s h1 h2
    rw [says_serialize hI.nodup] at h1 h2
    exact hI.uniq s k k' h1 h2
  · intro k s h1
    rw [says_serialize hI.nodup] at h1
    exact reach_valid h h1

/-- C193: writing an archive to a file that its names do not know lists the file under the reference of the archive,
changes nothing else, and what is written lists what the archive lists. -/
theorem write_new {a : Arch R S} (h : Reach valid localRef a.tbl) {src : S} (hs : a.tbl.source = some src) {r : R}
    (hl : Lists a r src) (gzName : S → S) (upstream : Dict (Option S) R) {f : S}
    (hf : (namesMap upstream a.tbl).has (some f) = false) (hn : ∀ k, ¬ Lists a k f) (gzip complete : Bool) :
    ∃ a' doc, writeToFile valid localRef gzName upstream f gzip complete a =
        .ok (if gzip then gzName f else f, doc) a' ∧
      Reach valid localRef a'.tbl ∧ a'.tbl.source = some src ∧ ref localRef a' = .ok r ∧ a'.dataRef = a.dataRef ∧
      doc.top = none ∧ doc.init = some a.dataRef ∧ doc.Sound valid ∧
      (∀ k s, Lists a' k s ↔ Lists a k s ∨ (k = r ∧ s = f)) ∧ ∀ k s, doc.Says k s ↔ Lists a' k s := by
  have hI := ArcNames.reach_inv h
  obtain ⟨a', h1, h2, h3, h4⟩ := add_new (valid := valid) (localRef := localRef) hI (by rw [hs]; simp) false
    (reach_valid h hl) hn
  have hr := reach_add h r (some f) false
  rw [h1] at hr
  refine ⟨a', serialize complete a', ?_, hr, h3.1.trans hs,
    ref_listed h2 (h3.1.trans hs) ((h4 r src).2 (.inl hl)), h3.2.1, rfl, ?_, sound_serialize hr _, h4,
    fun k s => says_serialize h2.nodup _ k s⟩
  · unfold writeToFile
    simp only [hs, hf, Bool.false_eq_true, ↓reduceIte, ref_listed (localRef := localRef) hI hs hl, h1, Out.bind]
  · simp [serialize, h3.2.1]

/-- C193: an archive that still has the reference `d` it was created with, written to a new file and opened from there,
has the reference `d` and lists what it listed, and the file. -/
theorem reopen_saved {a : Arch R S} (h : Reach valid localRef a.tbl) {src : S} (hs : a.tbl.source = some src)
    (hl : Lists a a.dataRef src) (gzName : S → S) (upstream : Dict (Option S) R) {f : S}
    (hf : (namesMap upstream a.tbl).has (some f) = false) (hn : ∀ k, ¬ Lists a k f) (complete gzip : Bool)
    (hgz : gzip = true → ∀ k, Lists a k (gzName f) → k = a.dataRef) :
    ∃ a' p doc b, writeToFile valid localRef gzName upstream f gzip complete a = .ok (p, doc) a' ∧
      fromFile valid localRef p doc = .ok b ∧ ref localRef b = .ok a.dataRef ∧ b.dataRef = a.dataRef ∧
      b.tbl.source = some p ∧
      ∀ k s, Lists b k s ↔ Lists a k s ∨ (k = a.dataRef ∧ (s = f ∨ s = p)) := by
  obtain ⟨a', doc, h1, -, -, -, -, h6, h7, h8, h9, h10⟩ :=
    write_new h hs hl gzName upstream hf hn gzip complete
  have hv := reach_valid h hl
  obtain ⟨b, g1, g2, g3, g4, g5⟩ := open_ok (valid := valid) (localRef := localRef)
    (f := if gzip then gzName f else f) (r := a.dataRef) h6 h8 hv none (by simp [h7]) (by
      intro k hk
      rw [h10, h9] at hk
      rcases hk with hk | hk
      · cases gzip with
        | true => exact hgz rfl k hk
        | false => exact absurd hk (hn k)
      · exact hk.1)
  refine ⟨a', _, doc, b, h1, by rw [fromFile_eq _ h6]; exact g1, g2, g4, g3, ?_⟩
  intro k s
  rw [g5, h10, h9]
  tauto

/-- C193: an archive whose reference `r` is not the one it was created with: written to a new file, that file cannot
be opened without naming the reference: SourceAlreadyKnown. Opened with the reference `r` it is the archive again. -/
theorem reopen_renamed {a : Arch R S} (h : Reach valid localRef a.tbl) {src : S} (hs : a.tbl.source = some src) {r : R}
    (hl : Lists a r src) (hne : r ≠ a.dataRef) (hv : valid a.dataRef = true) (gzName : S → S)
    (upstream : Dict (Option S) R) {f : S} (hf : (namesMap upstream a.tbl).has (some f) = false)
    (hn : ∀ k, ¬ Lists a k f) (hd : a.dataRef ≠ localRef f) (complete : Bool) :
    ∃ a' doc, writeToFile valid localRef gzName upstream f false complete a = .ok (f, doc) a' ∧
      fromFile valid localRef f doc = .error .sourceAlreadyKnown ∧
      ∃ b, fromOpen valid localRef (some r) f doc = .ok b ∧ ref localRef b = .ok r ∧
        ∀ k s, Lists b k s ↔ Lists a k s ∨ (k = r ∧ s = f) := by
  obtain ⟨a', doc, h1, -, -, -, -, h6, h7, h8, h9, h10⟩ :=
    write_new h hs hl gzName upstream hf hn false complete
  have hsay : doc.Says r f := (h10 r f).2 ((h9 r f).2 (.inr ⟨rfl, rfl⟩))
  refine ⟨a', doc, by simpa using h1, ?_, ?_⟩
  · rw [fromFile_eq _ h6]
    exact open_err h6 h8.ok hv none (by simp [h7]) hd hsay hne
  · obtain ⟨b, g1, g2, -, -, g5⟩ := open_ok (valid := valid) (localRef := localRef) (f := f) (r := r) h6 h8
      (reach_valid h hl) (some r) (by simp) (fun k hk => h8.one k r f hk hsay)
    refine ⟨b, g1, g2, ?_⟩
    intro k s
    rw [g5, h10, h9]
    tauto

/-! ### C194 -/

theorem addPairs_reach (ps : List (R × S)) : ∀ {a : Arch R S}, Reach valid localRef a.tbl →
    Reach valid localRef (addPairs valid localRef ps a).state.tbl ∧ (addPairs valid localRef ps a).state.dataRef = a.dataRef := by
  induction ps with
  | nil => intro a h; exact ⟨h, rfl⟩
  | cons p ps ih =>
    obtain ⟨k, s⟩ := p
    intro a h
    have h1 := reach_add h k (some s) false
    have h2 := add_dataRef (valid := valid) (localRef := localRef) k (some s) false a
    rw [addPairs]
    cases hc : add valid localRef k (some s) false a with
    | err e b => rw [hc] at h1 h2; exact ⟨h1, h2⟩
    | ok u b =>
      rw [hc] at h1 h2
      simp only [Out.bind]
      obtain ⟨g1, g2⟩ := ih h1
      exact ⟨g1, g2.trans h2⟩

/-- loading leaves a table that can occur, and the initial reference -/
theorem load_reach {a : Arch R S} (h : Reach valid localRef a.tbl) (d : Doc R S) (file : Option S) :
    Reach valid localRef (loadFromDict valid localRef d file a).state.tbl ∧
      (loadFromDict valid localRef d file a).state.dataRef = a.dataRef := by
  obtain ⟨h1, h1'⟩ := addPairs_reach (valid := valid) (localRef := localRef) d.pairs h
  unfold loadFromDict
  cases hc : addPairs valid localRef d.pairs a with
  | err e b => rw [hc] at h1 h1'; exact ⟨h1, h1'⟩
  | ok u b =>
    rw [hc] at h1 h1'
    simp only [Out.state] at h1 h1'
    simp only [Out.bind]
    have htop : Reach valid localRef (addTop valid localRef d b).state.tbl ∧
        (addTop valid localRef d b).state.dataRef = b.dataRef := by
      unfold addTop
      cases d.top with
      | none => exact ⟨h1, rfl⟩
      | some r =>
        have g1 := reach_add h1 r d.source false
        have g2 := add_dataRef (valid := valid) (localRef := localRef) r d.source false b
        simp only
        split
        · rename_i c hcc
          rw [hcc] at g1 g2
          simp only [Out.state] at g1 g2
          exact ⟨reach_add g1 r none false, (add_dataRef r none false c).trans g2⟩
        · exact ⟨g1, g2⟩
    cases hct : addTop valid localRef d b with
    | err e c => rw [hct] at htop; exact ⟨htop.1, htop.2.trans h1'⟩
    | ok u c =>
      rw [hct] at htop
      simp only [Out.state] at htop
      simp only
      have hfile : Reach valid localRef (addFile valid localRef file c).state.tbl ∧
          (addFile valid localRef file c).state.dataRef = c.dataRef := by
        unfold addFile
        cases file with
        | none => exact ⟨htop.1, rfl⟩
        | some f =>
          cases hr : ref localRef c with
          | error e => exact ⟨htop.1, rfl⟩
          | ok r => exact ⟨reach_add htop.1 r _ _, add_dataRef r _ _ c⟩
      cases hcf : addFile valid localRef file c with
      | err e x => rw [hcf] at hfile; exact ⟨hfile.1, hfile.2.trans (htop.2.trans h1')⟩
      | ok u x =>
        rw [hcf] at hfile
        simp only [Out.state] at hfile
        simp only
        have hx : ∀ y : Arch R S, y.tbl = x.tbl → y.dataRef = x.dataRef →
            Reach valid localRef y.tbl ∧ y.dataRef = a.dataRef :=
          fun y e1 e2 => ⟨e1 ▸ hfile.1, e2.trans (hfile.2.trans (htop.2.trans h1'))⟩
        cases hdl : d.loaded <;> simp only [Out.state] <;> split <;> exact hx _ rfl rfl

theorem loadAll_reach {a : Arch R S} (h : Reach valid localRef a.tbl) (load : Option (Option (Doc R S))) :
    Reach valid localRef (loadAll valid localRef load a).state.tbl ∧
      (loadAll valid localRef load a).state.dataRef = a.dataRef := by
  unfold loadAll
  by_cases hl : a.loaded = true
  · rw [if_pos hl]; exact ⟨h, rfl⟩
  · rw [if_neg hl]
    match load with
    | none => exact ⟨h, rfl⟩
    | some none => exact ⟨h, rfl⟩
    | some (some d) =>
      have := load_reach h d none
      simp only
      cases hc : loadFromDict valid localRef d none a <;> rw [hc] at this <;> exact this

/-- C194: a descendant. When `create_descendant` returns, the archive has the new reference and the new file as its
source, still the initial reference, and what was written lists what it lists. -/
theorem descendant_ok {a a' : Arch R S} (h : Reach valid localRef a.tbl) {gzName : S → S} {upstream : Dict (Option S) R}
    {newRef : R → R} {newSource : R → S} {taken : S → Bool} {force : Bool} {load : Option (Option (Doc R S))}
    {r' : R} {p : S} {doc : Doc R S}
    (hc : createDescendant valid localRef gzName upstream newRef newSource taken force load a = .ok (r', p, doc) a') :
    (∃ r, ref localRef a = .ok r ∧ r' = newRef r ∧ r' ≠ r) ∧ p = gzName (newSource r') ∧
      Reach valid localRef a'.tbl ∧ Lists a' r' (newSource r') ∧ a'.tbl.source = some (newSource r') ∧
      ref localRef a' = .ok r' ∧ a'.descendant = true ∧ a'.dataRef = a.dataRef ∧
      doc.top = none ∧ doc.init = some a.dataRef ∧ doc.Sound valid ∧ (∀ k s, doc.Says k s ↔ Lists a' k s) ∧
      (∃ a1, loadAll valid localRef load a = .ok () a1 ∧ ((∀ k, ¬ Lists a1 k (newSource r')) →
        ∀ k s, Lists a' k s ↔ Lists a1 k s ∨ (k = r' ∧ s = newSource r'))) ∧
      (taken (newSource r') = true → force = true) := by
  unfold createDescendant at hc
  cases hr : ref localRef a with
  | error e => rw [hr] at hc; cases hc
  | ok r =>
    simp only [hr] at hc
    by_cases hk : newRef r = r
    · rw [if_pos hk] at hc; cases hc
    rw [if_neg hk] at hc
    by_cases ht : (taken (newSource (newRef r)) && !force) = true
    · rw [if_pos ht] at hc; cases hc
    rw [if_neg ht] at hc
    cases hld : loadAll valid localRef load a with
    | err e b => rw [hld] at hc; cases hc
    | ok u a1 =>
    rw [hld] at hc
    simp only [Out.bind] at hc
    have h1 := loadAll_reach h load
    rw [hld] at h1
    obtain ⟨h1r, h1d⟩ := h1
    simp only [Out.state] at h1r h1d
    have hset := reach_set h1r (newRef r) (newSource (newRef r))
    have hI := ArcNames.reach_inv h1r
    have hI' : Inv ({ a1.tbl with source := some (newSource (newRef r)) } : State R S) := ⟨hI.nodup, hI.uniq, by simp⟩
    cases hadd : add valid localRef (newRef r) (some (newSource (newRef r))) false
        { a1 with tbl := { a1.tbl with source := some (newSource (newRef r)) } } with
    | err e b => rw [hadd] at hc; cases hc
    | ok u b =>
      rw [hadd] at hc hset
      simp only [Out.state] at hset
      have hbI := ArcNames.reach_inv hset
      have hv : valid (newRef r) = true := by
        by_contra hv
        have := ArcNames.invalid_reference (localRef := localRef) (newRef r) (some (newSource (newRef r))) false
          ({ a1.tbl with source := some (newSource (newRef r)) } : State R S) (by simpa using hv)
        unfold add at hadd
        rw [this] at hadd
        cases hadd
      -- the new source is listed
      have hb : Lists b (newRef r) (newSource (newRef r)) ∧ b.tbl.source = some (newSource (newRef r)) ∧
          b.dataRef = a1.dataRef ∧ ((∀ k, ¬ Lists a1 k (newSource (newRef r))) →
            ∀ k s, Lists b k s ↔ Lists a1 k s ∨ (k = newRef r ∧ s = newSource (newRef r))) := by
        by_cases hx : ∃ k, Lists a1 k (newSource (newRef r))
        · obtain ⟨k, hkl⟩ := hx
          have hsp := ArcNames.scan_present (localRef := localRef) (newRef r) (newSource (newRef r)) false a1.tbl.names.keys
            ({ a1.tbl with source := some (newSource (newRef r)) } : State R S) hI' k hkl (ArcNames.listed_key hkl)
          have hadd' := (show addName valid localRef (newRef r) (some (newSource (newRef r))) false
              ({ a1.tbl with source := some (newSource (newRef r)) } : State R S) =
              ArcNames.scan localRef (newRef r) (newSource (newRef r)) false a1.tbl.names.keys
                { a1.tbl with source := some (newSource (newRef r)) } from by
            unfold addName
            simp only [hv, Bool.not_true, Bool.false_eq_true, ↓reduceIte]).trans hsp
          unfold add at hadd
          rw [hadd'] at hadd
          by_cases hown : k = localRef (newSource (newRef r))
          · rw [if_pos ⟨rfl, hown⟩] at hadd
            injection hadd with _ hadd
            subst hadd
            refine ⟨?_, rfl, rfl, fun hn => absurd hkl (hn k)⟩
            unfold Lists State.at
            simp only [Dict.get?_set]
            simp only [↓reduceIte, Option.getD_some]
            exact hkl
          · rw [if_neg (fun h => hown h.2)] at hadd
            by_cases hkr : k = newRef r
            · rw [if_pos hkr] at hadd
              injection hadd with _ hadd
              subst hadd
              exact ⟨hkr ▸ hkl, rfl, rfl, fun hn => absurd hkl (hn k)⟩
            · rw [if_neg hkr] at hadd
              simp at hadd
        · obtain ⟨b', g1, -, g3, g4⟩ := add_new (valid := valid) (localRef := localRef)
            (a := { a1 with tbl := { a1.tbl with source := some (newSource (newRef r)) } }) hI' (by simp)
            (r := newRef r) (s := newSource (newRef r)) false hv (fun k hkl => hx ⟨k, hkl⟩)
          rw [g1] at hadd
          injection hadd with _ hadd
          subst hadd
          exact ⟨(g4 _ _).2 (.inr ⟨rfl, rfl⟩), g3.1, g3.2.1, fun _ => g4⟩
      obtain ⟨hbl, hbs, hbd, hbn⟩ := hb
      -- the new source is known, so writing registers nothing
      have hknown : (namesMap upstream b.tbl).has (some (newSource (newRef r))) = true := by
        have := ArcNames.names_of_source hset upstream (newSource (newRef r))
        rw [Dict.has_iff, Dict.mem_keys_iff]
        have hg := this.1 _ hbl
        simp [hg]
      unfold writeToFile at hc
      simp only [hbs, hknown, ↓reduceIte, Out.bind] at hc
      injection hc with hc1 hc2
      simp only [Prod.mk.injEq] at hc1
      obtain ⟨rfl, rfl, rfl⟩ := hc1
      subst hc2
      refine ⟨⟨r, rfl, rfl, hk⟩, rfl, hset, hbl, hbs, ?_, rfl, hbd.trans h1d, rfl, ?_, ?_, ?_, ?_, ?_⟩
      · exact ref_listed (a := { b with descendant := true }) hbI hbs hbl
      · show some b.dataRef = _
        rw [hbd, h1d]
      · exact sound_serialize (a := { b with descendant := true }) hset true
      · exact fun k s => says_serialize (a := { b with descendant := true }) hbI.nodup true k s
      · exact ⟨a1, rfl, hbn⟩
      · intro htk
        simp only [htk, Bool.true_and, Bool.not_eq_true', Bool.not_eq_false] at ht
        exact ht

/-- C194: a descendant cannot be opened from its file without naming its reference: SourceAlreadyKnown, since the file
still has the initial reference of the archive it descends from. Opened with its reference, it has that reference and
lists what the archive lists. -/
theorem descendant_reopen {a a' : Arch R S} (h : Reach valid localRef a.tbl) {gzName : S → S}
    {upstream : Dict (Option S) R} {newRef : R → R} {newSource : R → S} {taken : S → Bool} {force : Bool}
    {load : Option (Option (Doc R S))} {r' : R} {p : S} {doc : Doc R S}
    (hgz : ∀ r, gzName (newSource r) = newSource r)
    (hc : createDescendant valid localRef gzName upstream newRef newSource taken force load a = .ok (r', p, doc) a')
    (hv : valid a.dataRef = true) :
    (r' ≠ a.dataRef → a.dataRef ≠ localRef p → fromFile valid localRef p doc = .error .sourceAlreadyKnown) ∧
      ∃ b, fromOpen valid localRef (some r') p doc = .ok b ∧ ref localRef b = .ok r' ∧ b.tbl.source = some p ∧
        ∀ k s, Lists b k s ↔ Lists a' k s := by
  obtain ⟨-, rfl, h3, h4, -, -, -, -, h9, h10, h11, h12, -⟩ := descendant_ok h hc
  rw [hgz]
  have hsay := (h12 _ _).2 h4
  constructor
  · intro hne hd
    rw [fromFile_eq _ h9]
    exact open_err h9 h11.ok hv none (by simp [h10]) hd hsay hne
  · obtain ⟨b, g1, g2, g3, -, g5⟩ := open_ok (valid := valid) (localRef := localRef) (f := newSource r') (r := r') h9 h11
      (reach_valid h3 h4) (some r') (by simp) (fun k hk => h11.one k r' _ hk hsay)
    refine ⟨b, g1, g2, g3, ?_⟩
    intro k s
    rw [g5, h12]
    constructor
    · rintro (h | ⟨rfl, rfl⟩)
      · exact h
      · exact h4
    · exact .inl

/-! ### a concrete case

references are strings of digits joined by dots, here numbers: 1 is the reference of an archive with source 10 and of a
second source 11; files are numbers from 20; the default reference of a file `f` is `100 + f`. -/

instance (a : Arch R S) (k : R) (s : S) : Decidable (Lists a k s) := inferInstanceAs (Decidable (some s ∈ a.tbl.at k))

def exNew : Arch ℕ ℕ := { tbl := { names := [(1, [some 10, some 11]), (2, [some 12])], source := some 10 }, dataRef := 1 }

theorem exNew_reach : Reach (fun _ => true) (fun s => 100 + s) exNew.tbl :=
  .call (.addName 2 (some 12) false) (.call (.addName 1 (some 11) false) (.new 1 (some 10) rfl))

/-- C193: written to 20 and opened again -/
example : (match writeToFile (fun _ => true) (fun s => 100 + s) id [] 20 false true exNew with
    | .ok (p, doc) _ => (fromFile (fun _ => true) (fun s => 100 + s) p doc).toOption
    | .err _ _ => none) =
    some { tbl := { names := [(1, [some 20, some 10, some 11]), (2, [some 12])], source := some 20 }
           dataRef := 1, loaded := true } := by decide +kernel

example : ∃ a' p doc b, writeToFile (fun _ => true) (fun s => 100 + s) id [] 20 false true exNew = .ok (p, doc) a' ∧
    fromFile (fun _ => true) (fun s => 100 + s) p doc = .ok b ∧ ref (fun s => 100 + s) b = .ok 1 ∧ b.dataRef = 1 ∧
    b.tbl.source = some p ∧ ∀ k s, Lists b k s ↔ Lists exNew k s ∨ (k = 1 ∧ (s = 20 ∨ s = p)) :=
  reopen_saved (valid := fun _ => true) exNew_reach (src := 10) rfl (by decide +kernel) id [] (f := 20)
    (by decide +kernel) (fun k h => by
      have : k ∈ exNew.tbl.names.keys := ArcNames.listed_key h
      simp only [exNew, Dict.keys, List.map_cons, List.map_nil, List.mem_cons, List.not_mem_nil, or_false] at this
      rcases this with rfl | rfl <;> exact absurd h (by decide +kernel)) true false (by simp)

set_option synthInstance.maxSize 1000 in
/-- C194: its descendant 3, written to 23: the file cannot be opened, except as 3 -/
theorem descendant_lost : (match createDescendant (fun _ => true) (fun s => 100 + s) id [] (fun r => r + 2) (fun r => r + 20)
      (fun _ => false) false none exNew with
    | .ok (r, p, doc) a => some (r, p, (ref (fun s => 100 + s) a).toOption, a.tbl.names,
        (match fromFile (fun _ => true) (fun s => 100 + s) p doc with | .error e => some e | .ok _ => none),
        (fromOpen (fun _ => true) (fun s => 100 + s) (some r) p doc).toOption.map fun b => b.tbl.names)
    | .err _ _ => none) =
    some (3, 23, some 3, [(1, [some 10, some 11]), (2, [some 12]), (3, [some 23])], some .sourceAlreadyKnown,
      some [(3, [some 23]), (1, [some 10, some 11]), (2, [some 12])]) := by decide +kernel

/-- C195: the file of another archive, which gives 11 another reference -/
example : (loadFromDict (fun _ => true) (fun s => 100 + s) { names := [(4, [13]), (5, [11])] } (some 21) exNew).error? =
    some .sourceAlreadyKnown ∧
    (loadFromDict (fun _ => true) (fun s => 100 + s) { names := [(4, [13, 21]), (1, [11])] } (some 21) exNew).state.tbl.names =
      [(1, [some 10, some 11, some 21]), (2, [some 12]), (4, [some 13])] := by decide +kernel

end Arf
