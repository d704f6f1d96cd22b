import Verif.Model.ArcFile
import Verif.Props.ArchiveNames
import Mathlib.Tactic.Tauto

/-!
C193-C195: the names of an archive through files.
-/

namespace Arf

open ArcNames (State addName refOf namesMap Inv Reach)

set_option linter.unusedSectionVars false

variable {R S : Type} [DecidableEq R] [DecidableEq S] {valid : R → Bool} {localRef : S → R}

/-! ### specification -/

/-- source `s` is listed under the reference `k` in the archive -/
def Lists (a : Arch R S) (k : R) (s : S) : Prop := some s ∈ a.tbl.at k

/-- the document lists the source `s` under the reference `k` -/
def Doc.Says (d : Doc R S) (k : R) (s : S) : Prop := ∃ l, (k, l) ∈ d.names ∧ s ∈ l

/-- the document gives each source one valid reference -/
structure Doc.Sound (valid : R → Bool) (d : Doc R S) : Prop where
  one : ∀ k k' s, d.Says k s → d.Says k' s → k = k'
  ok : ∀ k s, d.Says k s → valid k = true

/-! ### lemmas -/

theorem says_pairs (d : Doc R S) (k : R) (s : S) : (k, s) ∈ d.pairs ↔ d.Says k s := by
  unfold Doc.pairs Doc.Says
  simp only [List.mem_flatMap, List.mem_map, Prod.mk.injEq, Prod.exists]
  constructor
  · rintro ⟨k', l, h1, s', h2, rfl, rfl⟩
    exact ⟨l, h1, h2⟩
  · rintro ⟨l, h1, h2⟩
    exact ⟨k, l, h1, s, h2, rfl, rfl⟩

/-- an archive all but its table: what registering a name leaves alone -/
def Same (a a' : Arch R S) : Prop :=
  a'.tbl.source = a.tbl.source ∧ a'.dataRef = a.dataRef ∧ a'.loaded = a.loaded ∧ a'.descendant = a.descendant

theorem Same.rfl' (a : Arch R S) : Same a a := ⟨rfl, rfl, rfl, rfl⟩

theorem Same.trans {a b c : Arch R S} (h : Same a b) (h' : Same b c) : Same a c :=
  ⟨h'.1.trans h.1, h'.2.1.trans h.2.1, h'.2.2.1.trans h.2.2.1, h'.2.2.2.trans h.2.2.2⟩

theorem finish_source (r : R) (s : S) (rw' : Bool) (st : State R S) (hs : st.source ≠ none) :
    ∃ st', ArcNames.finish localRef r (some s) rw' st = .ok () st' ∧ st'.source = st.source ∧
      st'.names = st.names.set r (PySet.add (st.at r) (some s)) := by
  obtain ⟨r', hr⟩ := ArcNames.refOf_ok (localRef := localRef)
    (st := { st with names := st.names.set r (PySet.add (st.at r) (some s)) }) (fun h => absurd h hs)
  refine ⟨{ st with names := st.names.set r (PySet.add (st.at r) (some s)) }, ?_, rfl, rfl⟩
  unfold ArcNames.finish
  simp only [hr]
  rw [if_neg (fun h => hs h.2.1)]

theorem at_finish {st st' : State R S} {r : R} {s : S} (h : st'.names = st.names.set r (PySet.add (st.at r) (some s)))
    (k : R) (x : Option S) : x ∈ st'.at k ↔ x ∈ st.at k ∨ (k = r ∧ x = some s) := by
  have : st'.at k = State.at { st with names := st.names.set r (PySet.add (st.at r) (some s)) } k := by
    show (st'.names.get? k).getD [] = ((st.names.set r (PySet.add (st.at r) (some s))).get? k).getD []
    rw [h]
  rw [this, ArcNames.at_set]
  split
  · rename_i e; subst e; simp
  · rename_i e; simp [Ne.symm e]

/-- a source that is not listed gets listed -/
theorem add_new {a : Arch R S} (hI : Inv a.tbl) (hsrc : a.tbl.source ≠ none) {r : R} {s : S} (w : Bool)
    (hv : valid r = true) (hn : ∀ k, ¬ Lists a k s) :
    ∃ a', add valid localRef r (some s) w a = .ok () a' ∧ Inv a'.tbl ∧ Same a a' ∧
      ∀ k t, Lists a' k t ↔ Lists a k t ∨ (k = r ∧ t = s) := by
  obtain ⟨st', h1, h2, h3⟩ := finish_source (localRef := localRef) r s w a.tbl hsrc
  have hadd : addName valid localRef r (some s) w a.tbl = .ok () st' := by
    unfold addName
    simp only [hv, Bool.not_true, Bool.false_eq_true, ↓reduceIte]
    rw [ArcNames.scan_absent r s w _ _ hn, h1]
  have hinv := ArcNames.inv_add_name (valid := valid) (localRef := localRef) r (some s) w a.tbl hI.nodup hI.uniq hI.home
  rw [hadd] at hinv
  refine ⟨{ a with tbl := st' }, ?_, hinv, ⟨h2, rfl, rfl, rfl⟩, ?_⟩
  · unfold add; rw [hadd]
  · intro k t
    have := at_finish h3 k (some t)
    unfold Lists
    rw [this, Option.some.injEq]

/-- a source listed under the reference already: the listing stays -/
theorem add_listed {a : Arch R S} (hI : Inv a.tbl) {r : R} {s : S} (w : Bool) (hv : valid r = true)
    (hl : Lists a r s) :
    ∃ a', add valid localRef r (some s) w a = .ok () a' ∧ Inv a'.tbl ∧ Same a a' ∧
      ∀ k t, Lists a' k t ↔ Lists a k t := by
  have hinv := ArcNames.inv_add_name (valid := valid) (localRef := localRef) r (some s) w a.tbl hI.nodup hI.uniq hI.home
  have he : addName valid localRef r (some s) w a.tbl =
      if a.tbl.source = some s ∧ r = localRef s then
        .ok () { a.tbl with names := (a.tbl.names.del r).set r (a.tbl.at r) } else .ok () a.tbl := by
    unfold addName
    simp only [hv, Bool.not_true, Bool.false_eq_true, ↓reduceIte]
    rw [ArcNames.scan_present r s w _ _ hI r hl (ArcNames.listed_key hl)]
    simp
  by_cases ho : a.tbl.source = some s ∧ r = localRef s
  · rw [if_pos ho] at he
    rw [he] at hinv
    refine ⟨{ a with tbl := { a.tbl with names := (a.tbl.names.del r).set r (a.tbl.at r) } }, ?_, hinv,
      ⟨rfl, rfl, rfl, rfl⟩, ?_⟩
    · unfold add; rw [he]
    · intro k t
      unfold Lists
      have : State.at { a.tbl with names := (a.tbl.names.del r).set r (a.tbl.at r) } k = a.tbl.at k := by
        simp only [State.at, Dict.get?_set, Dict.get?_del _ hI.nodup]
        by_cases e : r = k
        · subst e; simp
        · simp [e]
      rw [this]
  · rw [if_neg ho] at he
    refine ⟨a, ?_, hI, Same.rfl' a, fun _ _ => Iff.rfl⟩
    unfold add; rw [he]

/-- a source listed under another reference is refused, unless it is the archive's own at its default reference -/
theorem add_conflict {a : Arch R S} (hI : Inv a.tbl) {r k : R} {s : S} (hv : valid r = true)
    (hl : Lists a k s) (hne : k ≠ r) (hown : ¬ (a.tbl.source = some s ∧ k = localRef s)) :
    add valid localRef r (some s) false a = .err .sourceAlreadyKnown a := by
  have : addName valid localRef r (some s) false a.tbl = .err .sourceAlreadyKnown a.tbl := by
    unfold addName
    simp only [hv, Bool.not_true, Bool.false_eq_true, ↓reduceIte]
    rw [ArcNames.scan_present r s false _ _ hI k hl (ArcNames.listed_key hl), if_neg hown, if_neg hne]
    rfl
  unfold add; rw [this]; rfl

/-- with rewrite it moves -/
theorem add_moves {a : Arch R S} (hI : Inv a.tbl) (hsrc : a.tbl.source ≠ none) {r k : R} {s : S} (hv : valid r = true)
    (hl : Lists a k s) (hne : k ≠ r) (hown : ¬ (a.tbl.source = some s ∧ k = localRef s)) :
    ∃ a', add valid localRef r (some s) true a = .ok () a' ∧ Inv a'.tbl ∧ Same a a' ∧
      ∀ k' t, Lists a' k' t ↔ (t ≠ s ∧ Lists a k' t) ∨ (t = s ∧ k' = r) := by
  obtain ⟨st', h1, h2, h3⟩ := finish_source (localRef := localRef) r s true
    { a.tbl with names := a.tbl.names.set k ((a.tbl.at k).filter fun x => decide (x ≠ some s)) } hsrc
  have hadd : addName valid localRef r (some s) true a.tbl = .ok () st' := by
    unfold addName
    simp only [hv, Bool.not_true, Bool.false_eq_true, ↓reduceIte]
    rw [ArcNames.scan_present r s true _ _ hI k hl (ArcNames.listed_key hl), if_neg hown, if_neg hne, if_pos rfl, h1]
  have hinv := ArcNames.inv_add_name (valid := valid) (localRef := localRef) r (some s) true a.tbl hI.nodup hI.uniq hI.home
  rw [hadd] at hinv
  refine ⟨{ a with tbl := st' }, ?_, hinv, ⟨h2, rfl, rfl, rfl⟩, ?_⟩
  · unfold add; rw [hadd]
  · intro k' t
    have h4 := at_finish h3 k' (some t)
    show some t ∈ st'.at k' ↔ _
    rw [h4, Option.some.injEq, ArcNames.at_set]
    by_cases e : k = k'
    · subst e
      rw [if_pos rfl]
      simp only [List.mem_filter, decide_eq_true_eq, ne_eq, Option.some.injEq]
      unfold Lists
      tauto
    · rw [if_neg e]
      unfold Lists
      by_cases ht : t = s
      · subst ht
        constructor
        · rintro (h | h)
          · exact absurd (hI.uniq t k k' hl h) e
          · exact .inr ⟨rfl, h.1⟩
        · rintro (h | h)
          · exact absurd rfl h.1
          · exact .inr ⟨h.2, rfl⟩
      · tauto

/-- the reference is the one under which the own source is listed -/
theorem ref_listed {a : Arch R S} (hI : Inv a.tbl) {r : R} {f : S} (hs : a.tbl.source = some f) (hl : Lists a r f) :
    ref localRef a = .ok r := by
  have : refOf localRef a.tbl = .ok r := by
    unfold refOf
    cases hf : a.tbl.names.keys.find? fun k => decide (a.tbl.source ∈ a.tbl.at k) with
    | some k =>
      have hk := List.find?_some hf
      simp only [decide_eq_true_eq] at hk
      rw [hs] at hk
      rw [hI.uniq f k r hk hl]
    | none =>
      rw [List.find?_eq_none] at hf
      have := hf r (ArcNames.listed_key hl)
      rw [hs] at this
      simp only [decide_eq_true_eq] at this
      exact absurd hl this
  unfold ref; rw [this]

/-- registering the sources of a document that agrees with the archive -/
theorem addPairs_ok (ps : List (R × S)) : ∀ (a : Arch R S), Inv a.tbl → a.tbl.source ≠ none →
    (∀ k s, (k, s) ∈ ps → valid k = true) → (∀ k k' s, (k, s) ∈ ps → Lists a k' s → k' = k) →
    (∀ k k' s, (k, s) ∈ ps → (k', s) ∈ ps → k' = k) →
    ∃ a', addPairs valid localRef ps a = .ok () a' ∧ Inv a'.tbl ∧ Same a a' ∧
      ∀ k s, Lists a' k s ↔ Lists a k s ∨ (k, s) ∈ ps := by
  induction ps with
  | nil => intro a hI _ _ _ _; exact ⟨a, rfl, hI, Same.rfl' a, by simp⟩
  | cons p ps ih =>
    obtain ⟨r, s⟩ := p
    intro a hI hsrc hv hc hp
    have hstep : ∃ a', add valid localRef r (some s) false a = .ok () a' ∧ Inv a'.tbl ∧ Same a a' ∧
        ∀ k t, Lists a' k t ↔ Lists a k t ∨ (k = r ∧ t = s) := by
      by_cases hl : ∃ k, Lists a k s
      · obtain ⟨k, hk⟩ := hl
        have := hc r k s (by simp) hk
        subst this
        obtain ⟨a', h1, h2, h3, h4⟩ := add_listed (valid := valid) (localRef := localRef) hI false (hv k s (by simp)) hk
        refine ⟨a', h1, h2, h3, fun k' t => ?_⟩
        rw [h4]
        constructor
        · exact .inl
        · rintro (h | ⟨rfl, rfl⟩)
          · exact h
          · exact hk
      · exact add_new hI hsrc false (hv r s (by simp)) fun k hk => hl ⟨k, hk⟩
    obtain ⟨a', h1, h2, h3, h4⟩ := hstep
    obtain ⟨b, g1, g2, g3, g4⟩ := ih a' h2 (by rw [h3.1]; exact hsrc) (fun k t h => hv k t (by simp [h]))
      (by
        intro k k' t h hl
        rw [h4] at hl
        rcases hl with hl | ⟨rfl, rfl⟩
        · exact hc k k' t (by simp [h]) hl
        · exact hp k k' t (by simp [h]) (by simp))
      (fun k k' t h h' => hp k k' t (by simp [h]) (by simp [h']))
    refine ⟨b, ?_, g2, h3.trans g3, ?_⟩
    · simp only [addPairs, h1, Out.bind, g1]
    · intro k t
      rw [g4, h4, List.mem_cons, Prod.mk.injEq]
      tauto

/-- registering the sources of a document that disagrees with the archive, or with itself -/
theorem addPairs_conflict (ps : List (R × S)) : ∀ (a : Arch R S) (f : S) (d : R), Inv a.tbl →
    a.tbl.source = some f → Lists a d f → d ≠ localRef f → (∀ k s, (k, s) ∈ ps → valid k = true) →
    (∃ k k' s, k' ≠ k ∧ (k, s) ∈ ps ∧ (Lists a k' s ∨ (k', s) ∈ ps)) →
    ∃ a', addPairs valid localRef ps a = .err .sourceAlreadyKnown a' := by
  induction ps with
  | nil => rintro a f d - - - - - ⟨k, k', s, -, h, -⟩; simp at h
  | cons p ps ih =>
    obtain ⟨r, s⟩ := p
    intro a f d hI hf hd hdl hv hbad
    have hown : ∀ k, Lists a k s → ¬ (a.tbl.source = some s ∧ k = localRef s) := by
      rintro k hk ⟨h1, h2⟩
      rw [hf, Option.some.injEq] at h1
      subst h1
      exact hdl ((hI.uniq f d k hd hk).trans h2)
    have hsrc : a.tbl.source ≠ none := by rw [hf]; simp
    by_cases hc : ∃ k, k ≠ r ∧ Lists a k s
    · obtain ⟨k, hkr, hk⟩ := hc
      refine ⟨a, ?_⟩
      simp only [addPairs, add_conflict (valid := valid) (localRef := localRef) hI (hv r s (by simp)) hk hkr (hown k hk),
        Out.bind]
    · have hstep : ∃ a', add valid localRef r (some s) false a = .ok () a' ∧ Inv a'.tbl ∧ Same a a' ∧
          ∀ k t, Lists a' k t ↔ Lists a k t ∨ (k = r ∧ t = s) := by
        by_cases hl : Lists a r s
        · obtain ⟨a', h1, h2, h3, h4⟩ := add_listed (valid := valid) (localRef := localRef) hI false (hv r s (by simp)) hl
          refine ⟨a', h1, h2, h3, fun k' t => ?_⟩
          rw [h4]
          constructor
          · exact .inl
          · rintro (h | ⟨rfl, rfl⟩)
            · exact h
            · exact hl
        · exact add_new hI hsrc false (hv r s (by simp)) fun k hk => by
            by_cases e : k = r
            · subst e; exact hl hk
            · exact hc ⟨k, e, hk⟩
      obtain ⟨a', h1, h2, h3, h4⟩ := hstep
      obtain ⟨b, hb⟩ := ih a' f d h2 (by rw [h3.1]; exact hf) ((h4 d f).2 (.inl hd)) hdl
        (fun k t h => hv k t (by simp [h])) (by
          obtain ⟨k, k', t, hne, hm, hor⟩ := hbad
          rcases List.mem_cons.1 hm with h | h
          · rw [Prod.mk.injEq] at h
            obtain ⟨rfl, rfl⟩ := h
            rcases hor with hor | hor
            · exact absurd ⟨k', hne, hor⟩ hc
            · rcases List.mem_cons.1 hor with g | g
              · rw [Prod.mk.injEq] at g
                exact absurd g.1 hne
              · exact ⟨k', k, t, Ne.symm hne, g, .inl ((h4 k t).2 (.inr ⟨rfl, rfl⟩))⟩
          · rcases hor with hor | hor
            · exact ⟨k, k', t, hne, h, .inl ((h4 k' t).2 (.inl hor))⟩
            · rcases List.mem_cons.1 hor with g | g
              · rw [Prod.mk.injEq] at g
                exact ⟨k, k', t, hne, h, .inl ((h4 k' t).2 (.inr g))⟩
              · exact ⟨k, k', t, hne, h, .inr g⟩)
      refine ⟨b, ?_⟩
      simp only [addPairs, h1, Out.bind, hb]

/-! ### C195 -/

/-- C195: reading a file (of the present form) into an archive whose own source `f` is listed under `d`, when the file
agrees with the archive on the reference of each source: afterwards the archive lists what it listed and what the file
lists, except that the file itself is listed under `d`; its reference, source and initial reference are unchanged. -/
theorem load_agrees {a : Arch R S} {doc : Doc R S} {f : S} {d : R} (hI : Inv a.tbl) (hf : a.tbl.source = some f)
    (hd : Lists a d f) (hvd : valid d = true) (htop : doc.top = none) (hs : doc.Sound valid)
    (hc : ∀ k k' s, doc.Says k s → Lists a k' s → k' = k) (file : Option S) :
    ∃ a', loadFromDict valid localRef doc file a = .ok () a' ∧ Inv a'.tbl ∧ a'.tbl.source = some f ∧
      a'.dataRef = a.dataRef ∧ a'.descendant = a.descendant ∧ ref localRef a' = .ok d ∧
      ∀ k s, Lists a' k s ↔ if file = some s then k = d else Lists a k s ∨ doc.Says k s := by
  have hsrc : a.tbl.source ≠ none := by rw [hf]; simp
  obtain ⟨b, h1, h2, h3, h4⟩ := addPairs_ok (valid := valid) (localRef := localRef) doc.pairs a hI hsrc
    (fun k s h => hs.ok k s ((says_pairs ..).1 h)) (fun k k' s h => hc k k' s ((says_pairs ..).1 h))
    (fun k k' s h h' => hs.one k' k s ((says_pairs ..).1 h') ((says_pairs ..).1 h))
  have hbf : b.tbl.source = some f := h3.1.trans hf
  have hbd : Lists b d f := (h4 d f).2 (.inl hd)
  have hbs : b.tbl.source ≠ none := by rw [hbf]; simp
  have hbr := ref_listed (localRef := localRef) h2 hbf hbd
  have hfile : ∃ c, addFile valid localRef file b = .ok () c ∧ Inv c.tbl ∧ Same b c ∧ Lists c d f ∧
      ∀ k s, Lists c k s ↔ if file = some s then k = d else Lists b k s := by
    cases file with
    | none => exact ⟨b, rfl, h2, Same.rfl' b, hbd, by simp⟩
    | some g =>
      simp only [addFile, hbr]
      by_cases hl : ∃ k, Lists b k g
      · obtain ⟨k, hk⟩ := hl
        by_cases hkd : k = d
        · subst hkd
          obtain ⟨c, g1, g2, g3, g4⟩ := add_listed (valid := valid) (localRef := localRef) h2 true hvd hk
          refine ⟨c, g1, g2, g3, (g4 _ _).2 hbd, fun k' s => ?_⟩
          rw [g4]
          by_cases e : g = s
          · subst e
            rw [if_pos rfl]
            exact ⟨fun h => h2.uniq g k' k h hk, fun h => h ▸ hk⟩
          · rw [if_neg (by simpa using e)]
        · have hgf : g ≠ f := fun e => hkd (h2.uniq f k d (e ▸ hk) hbd)
          obtain ⟨c, g1, g2, g3, g4⟩ := add_moves (valid := valid) (localRef := localRef) h2 hbs hvd hk hkd (by
            rintro ⟨h, -⟩
            rw [hbf, Option.some.injEq] at h
            exact hgf h.symm)
          refine ⟨c, g1, g2, g3, (g4 _ _).2 (.inl ⟨Ne.symm hgf, hbd⟩), fun k' s => ?_⟩
          rw [g4]
          by_cases e : g = s
          · subst e
            rw [if_pos rfl]
            simp
          · rw [if_neg (by simpa using e)]
            simp [Ne.symm e]
      · obtain ⟨c, g1, g2, g3, g4⟩ := add_new (valid := valid) (localRef := localRef) h2 hbs true hvd
          fun k hk => hl ⟨k, hk⟩
        refine ⟨c, g1, g2, g3, (g4 _ _).2 (.inl hbd), fun k' s => ?_⟩
        rw [g4]
        by_cases e : g = s
        · subst e
          rw [if_pos rfl]
          constructor
          · rintro (h | h)
            · exact absurd ⟨k', h⟩ hl
            · exact h.1
          · exact fun h => .inr ⟨h, rfl⟩
        · rw [if_neg (by simpa using e)]
          simp [Ne.symm e]
  obtain ⟨c, g1, g2, g3, g4, g5⟩ := hfile
  have hcf : c.tbl.source = some f := g3.1.trans hbf
  have hcr := ref_listed (localRef := localRef) g2 hcf g4
  have hfin : loadFromDict valid localRef doc file a = .ok () (if file ≠ none ∧ file = some f then
      { (match doc.loaded with | some x => { c with loaded := x } | none => c) with loaded := true }
      else match doc.loaded with | some x => { c with loaded := x } | none => c) := by
    simp only [loadFromDict, h1, Out.bind, addTop, htop, g1]
    cases doc.loaded <;> simp [hcf]
  refine ⟨_, hfin, ?_⟩
  have htbl : ∀ x : Arch R S, x.tbl = c.tbl → x.dataRef = c.dataRef → x.descendant = c.descendant →
      Inv x.tbl ∧ x.tbl.source = some f ∧ x.dataRef = a.dataRef ∧ x.descendant = a.descendant ∧
        ref localRef x = .ok d ∧
        ∀ k s, Lists x k s ↔ if file = some s then k = d else Lists a k s ∨ doc.Says k s := by
    intro x hx1 hx2 hx3
    refine ⟨hx1 ▸ g2, hx1 ▸ hcf, hx2.trans (g3.2.1.trans h3.2.1), hx3.trans (g3.2.2.2.trans h3.2.2.2), ?_, ?_⟩
    · unfold ref at hcr ⊢
      rw [hx1]; exact hcr
    · intro k s
      have : Lists x k s ↔ Lists c k s := by unfold Lists; rw [hx1]
      rw [this, g5, h4, says_pairs]
  split <;> cases doc.loaded <;> exact htbl _ rfl rfl rfl

/-- C195: when the file disagrees with the archive, or with itself, on the reference of a source, reading it raises
SourceAlreadyKnown. -/
theorem load_disagrees {a : Arch R S} {doc : Doc R S} {f : S} {d : R} (hI : Inv a.tbl) (hf : a.tbl.source = some f)
    (hd : Lists a d f) (hdl : d ≠ localRef f) (hv : ∀ k s, doc.Says k s → valid k = true)
    (hc : ∃ k k' s, k' ≠ k ∧ doc.Says k s ∧ (Lists a k' s ∨ doc.Says k' s)) (file : Option S) :
    (loadFromDict valid localRef doc file a).error? = some .sourceAlreadyKnown := by
  obtain ⟨b, hb⟩ := addPairs_conflict (valid := valid) (localRef := localRef) doc.pairs a f d hI hf hd hdl
    (fun k s h => hv k s ((says_pairs ..).1 h)) (by
      obtain ⟨k, k', s, h1, h2, h3⟩ := hc
      exact ⟨k, k', s, h1, (says_pairs ..).2 h2, h3.imp_right (says_pairs ..).2⟩)
  simp only [loadFromDict, hb, Out.bind, Out.error?]

end Arf
