import Verif.Props.SynList

/-! Property C13: SynList.from_json(serialize()). -/

set_option linter.unusedSectionVars false

namespace Syn
variable {T : Type} [DecidableEq T] {L : Lex T}

/-- what a serialised list says: the record with the synonym -/
def InRec (L : Lex T) (t : T) (r : Option T × List T) : Prop := ∃ x ∈ r.2, L.san x = L.san t

theorem mem_serialize {s : State T} (hl : s.names.length = s.items.length) {r : Option T × List T} :
    r ∈ serialize s ↔ ∃ i : ℕ, s.items[i]? = some (some r.2) ∧ s.names[i]? = some r.1 := by
  unfold serialize
  rw [List.mem_filterMap]
  constructor
  · rintro ⟨⟨a, b⟩, hm, he⟩
    obtain ⟨i, hi⟩ := List.mem_iff_getElem?.mp hm
    rw [List.getElem?_zip_eq_some] at hi
    cases a with
    | none => simp at he
    | some l =>
      simp at he
      subst he
      exact ⟨i, hi.1, hi.2⟩
  · rintro ⟨i, h1, h2⟩
    refine ⟨(some r.2, r.1), ?_, by simp⟩
    apply List.mem_iff_getElem?.mpr
    exact ⟨i, List.getElem?_zip_eq_some.mpr ⟨h1, h2⟩⟩

theorem serialize_pairwise {s : State T} (h : Inv L s) :
    (serialize s).Pairwise fun a b => ∀ x ∈ a.2, ∀ y ∈ b.2, L.san x ≠ L.san y := by
  unfold serialize
  rw [List.pairwise_filterMap]
  rw [List.pairwise_iff_getElem]
  intro i j hi hj hij a ha b hb x hx y hy e
  simp only [List.getElem_zip, Option.map_eq_some_iff] at ha hb
  obtain ⟨la, h1, h2⟩ := ha
  obtain ⟨lb, h3, h4⟩ := hb
  subst h2 h4
  simp only at hx hy
  simp only [List.length_zip] at hi hj
  have e1 := h.listed i la (by rw [List.getElem?_eq_getElem (by omega)]; rw [h1]) x hx
  have e2 := h.listed j lb (by rw [List.getElem?_eq_getElem (by omega)]; rw [h3]) y hy
  rw [e, e2] at e1
  simp at e1; omega

/-- the state holds exactly the records -/
structure Loaded (L : Lex T) (rs : List (Option T × List T)) (s : State T) : Prop where
  inv : Inv L s
  len : s.items.length = rs.length
  known : ∀ k i, s.dict.get? k = some i → ∃ r, rs[i]? = some r ∧ ∃ x ∈ r.2, L.san x = k
  key : ∀ (i : ℕ) r, rs[i]? = some r → ∀ x ∈ r.2, s.dict.get? (L.san x) = some i
  name : ∀ (i : ℕ) r, rs[i]? = some r → s.names[i]? = some r.1

theorem load_one {s : State T} {rs : List (Option T × List T)} (h : Loaded L rs s) (o : PyOrd T)
    {n : T} {l : List T} (hn : ∃ x ∈ l, L.san x = L.san n) (hb : L.blank ∉ l)
    (hd : ∀ r ∈ rs, ∀ x ∈ r.2, ∀ y ∈ l, L.san x ≠ L.san y) :
    ∃ r s1 i s2, addSet L o (mergeSet (newTerm L)) (l ++ [n]) false s = .ok r s1 ∧
      setName L n s1 = .ok i s2 ∧ Loaded L (rs ++ [(some n, l)]) s2 := by
  have hfree : ∀ y ∈ l, s.dict.get? (L.san y) = none := by
    intro y hy
    cases hk : s.dict.get? (L.san y) with
    | none => rfl
    | some i =>
      obtain ⟨r, hr, x, hx, e⟩ := h.known _ _ hk
      exact absurd e (hd r (List.mem_of_getElem? hr) x hx y hy)
  have hfree' : ∀ y ∈ l ++ [n], s.dict.get? (L.san y) = none := by
    intro y hy
    rcases List.mem_append.mp hy with hy | hy
    · exact hfree y hy
    · simp at hy; subst hy
      obtain ⟨x, hx, e⟩ := hn
      rw [← e]; exact hfree x hx
  have hset : addSet L o (mergeSet (newTerm L)) (l ++ [n]) false s =
      newSet L (mergeSet (newTerm L)) (o.f (PySet.ofList (l ++ [n]))) s := by
    unfold addSet
    have h1 : (l ++ [n]).filterMap (getIndex L s) = [] := by
      rw [List.filterMap_eq_nil_iff]; intro a ha; exact hfree' a ha
    have h2 : (l ++ [n]).filter (fun t => (getIndex L s t).isNone) = l ++ [n] := by
      rw [List.filter_eq_self]; intro a ha; simp [getIndex, hfree' a ha]
    simp only [h1, h2, PySet.ofList, List.foldl_nil]
  have hu : (o.f (PySet.ofList (l ++ [n]))).filter (fun t => (getIndex L s t).isNone) =
      o.f (PySet.ofList (l ++ [n])) := by
    rw [List.filter_eq_self]; intro a ha
    rw [o.mem, PySet.mem_ofList] at ha
    simp [getIndex, hfree' a ha]
  have hne : o.f (PySet.ofList (l ++ [n])) ≠ [] := by
    intro e
    have : n ∈ o.f (PySet.ofList (l ++ [n])) := by rw [o.mem]; simp
    rw [e] at this; simp at this
  obtain ⟨s1, h1, hI1, ⟨l', hl', hm'⟩, hd1, hd2, hnm⟩ := newItem_fill h.inv (ts := o.f (PySet.ofList (l ++ [n]))) (by
    intro t ht; rw [o.mem, PySet.mem_ofList] at ht; exact hfree' t ht)
  have hadd : addSet L o (mergeSet (newTerm L)) (l ++ [n]) false s = .ok (some s.items.length) s1 := by
    rw [hset]; unfold newSet
    simp only [hu, if_neg hne]
    have : (newItem s).1 = s.items.length := rfl
    rw [this, h1]; rfl
  have hkey : ∀ x ∈ l, s1.dict.get? (L.san x) = some s.items.length := by
    intro x hx
    exact hd1 x (by rw [o.mem]; simp [hx]) (fun e => hb (e ▸ hx))
  have hnk : s1.dict.get? (L.san n) = some s.items.length := by
    obtain ⟨x, hx, e⟩ := hn
    rw [← e]; exact hkey x hx
  obtain ⟨i, hs, hsi, hI2⟩ := (setName_ok hI1 n).resolve_right (by simp [setName, getIndex, hnk])
  rw [hnk] at hsi
  simp at hsi
  subst hsi
  refine ⟨_, s1, _, _, hadd, hs, ⟨hI2, ?_, ?_, ?_, ?_⟩⟩
  · simp [hl', h.len]
  · intro k i hk
    simp only at hk
    by_cases hkk : ∃ t ∈ l ++ [n], t ≠ L.blank ∧ L.san t = k
    · obtain ⟨t, ht, htb, e⟩ := hkk
      have := hd1 t (by rw [o.mem, PySet.mem_ofList]; exact ht) htb
      rw [e, hk] at this
      simp at this; subst this
      refine ⟨(some n, l), by rw [h.len]; simp, ?_⟩
      rcases List.mem_append.mp ht with ht | ht
      · exact ⟨t, ht, e⟩
      · simp at ht; subst ht
        obtain ⟨x, hx, e'⟩ := hn
        exact ⟨x, hx, e'.trans e⟩
    · rw [hd2 k (by
        intro t ht hb' e
        rw [o.mem, PySet.mem_ofList] at ht
        exact hkk ⟨t, ht, hb', e⟩)] at hk
      obtain ⟨r, hr, hx⟩ := h.known k i hk
      exact ⟨r, by rw [List.getElem?_append_left (List.getElem?_eq_some_iff.mp hr).1]; exact hr, hx⟩
  · intro i r hr x hx
    simp only
    by_cases hi : i < rs.length
    · rw [List.getElem?_append_left hi] at hr
      rw [hd2 (L.san x) (by
        intro t ht _ e
        rw [o.mem, PySet.mem_ofList] at ht
        have h1 := hfree' t ht
        rw [e, h.key i r hr x hx] at h1
        simp at h1)]
      exact h.key i r hr x hx
    · rw [List.getElem?_append_right (by omega)] at hr
      have : i - rs.length = 0 := by
        by_contra hne'
        rw [List.getElem?_eq_none (by simp; omega)] at hr; simp at hr
      rw [this] at hr; simp at hr; subst hr
      rw [hkey x hx, h.len]
      congr 1; omega
  · intro i r hr
    simp only
    by_cases hi : i < rs.length
    · rw [List.getElem?_append_left hi] at hr
      rw [List.getElem?_set, if_neg (by rw [h.len]; omega), hnm i (by rw [h.len]; exact hi)]
      exact h.name i r hr
    · rw [List.getElem?_append_right (by omega)] at hr
      have hz : i - rs.length = 0 := by
        by_contra hne'
        rw [List.getElem?_eq_none (by simp; omega)] at hr; simp at hr
      rw [hz] at hr; simp at hr; subst hr
      have hi' : s.items.length = i := by rw [h.len]; omega
      have hlt : i < s1.names.length := by
        rw [hI1.lenN, hl']; simp; omega
      rw [List.getElem?_set, if_pos hi', if_pos (by rw [hi']; exact hlt)]

theorem load_all (o : PyOrd T) (rs : List (Option T × List T)) : ∀ {rs0 : List (Option T × List T)} {s : State T}
    (_ : Loaded L rs0 s)
    (_ : (rs0 ++ rs).Pairwise fun a b => ∀ x ∈ a.2, ∀ y ∈ b.2, L.san x ≠ L.san y)
    (_ : ∀ r ∈ rs, ∃ n, r.1 = some n ∧ (∃ x ∈ r.2, L.san x = L.san n) ∧ L.blank ∉ r.2),
    ∃ s', fromRecords L (fun it s => addSet L o (mergeSet (newTerm L)) it false s) rs s = .ok () s' ∧
      Loaded L (rs0 ++ rs) s' := by
  induction rs with
  | nil => intro rs0 s h _ _; exact ⟨s, rfl, by simpa using h⟩
  | cons r rs ih =>
    intro rs0 s h hp hr
    obtain ⟨a, l⟩ := r
    obtain ⟨n, h1, h2, h3⟩ := hr _ List.mem_cons_self
    simp only at h1 h2 h3
    subst h1
    obtain ⟨x, s1, i, s2, e1, e2, hL⟩ := load_one h o h2 h3 (by
      intro r hr' x hx y hy
      rw [List.pairwise_append] at hp
      exact hp.2.2 r hr' (some n, l) (by simp) x hx y hy)
    obtain ⟨s', h4, h5⟩ := ih hL (by simpa using hp) (fun r hr' => hr r (by simp [hr']))
    refine ⟨s', ?_, by simpa using h5⟩
    unfold fromRecords
    rw [e1]; simp only [Out.bind]; rw [e2]; exact h4

/-- C13 (partial). For every list reached by sound calls in which no item is empty, `from_json` of the
serialisation returns a list that answers `are_synonyms` and `name` as the original, for all terms, known or
not, and is again consistent.
Missing: lists with an empty item, i.e. after `add_term('')` or `add_set([''])`: see `C13_fails`; and lists
reached by unsound calls. -/
theorem C13_partial {s : State T} (h : Reach L s) (hne : ∀ r ∈ serialize s, r.2 ≠ []) (o : PyOrd T) :
    ∃ s', fromJson L o (serialize s) = .ok () s' ∧
      (∀ a b, areSynonyms L s' a b = areSynonyms L s a b) ∧
      (∀ a, nameOf L s' a = nameOf L s a) ∧
      (∀ a, (getIndex L s' a).isSome = (getIndex L s a).isSome) := by
  have hI := reach_inv h
  have hrec : ∀ r ∈ serialize s, ∃ n, r.1 = some n ∧ (∃ x ∈ r.2, L.san x = L.san n) ∧ L.blank ∉ r.2 := by
    intro r hr
    have hne' := hne r hr
    obtain ⟨i, h1, h2⟩ := (mem_serialize hI.lenN).mp hr
    obtain ⟨n, hn⟩ := hI.named i r.2 h1 hne'
    rw [hn] at h2
    simp at h2
    refine ⟨n, h2.symm, ?_, hI.nonblank i r.2 h1⟩
    obtain ⟨l, h3, x, hx, e⟩ := hI.live _ _ (hI.name i n hn)
    rw [h1] at h3; simp at h3; subst h3
    exact ⟨x, hx, e⟩
  have hpw := serialize_pairwise hI
  obtain ⟨s', h1, hL⟩ := load_all o (serialize s) (rs0 := []) (s := {})
    ⟨inv_init, rfl, by simp, by simp, by simp⟩ (by simpa using hpw) hrec
  rw [List.nil_append] at hL
  -- both lists are described by the records
  have hs : ∀ a i, getIndex L s a = some i →
      ∃ r ∈ serialize s, InRec L a r ∧ s.items[i]? = some (some r.2) ∧ s.names[i]? = some r.1 := by
    intro a i ha
    obtain ⟨l, h1, x, hx, e⟩ := hI.live _ _ ha
    obtain ⟨n, hn⟩ := hI.named i l h1 (fun e => by rw [e] at hx; simp at hx)
    exact ⟨(some n, l), (mem_serialize hI.lenN).mpr ⟨i, h1, hn⟩, ⟨x, hx, e⟩, h1, hn⟩
  have hs' : ∀ a i, getIndex L s' a = some i → ∃ r, (serialize s)[i]? = some r ∧ InRec L a r := by
    intro a i ha
    exact hL.known _ _ ha
  have huniq : ∀ a, ∀ r1 ∈ serialize s, ∀ r2 ∈ serialize s, InRec L a r1 → InRec L a r2 → r1 = r2 := by
    intro a r1 h1 r2 h2 ⟨x, hx, ex⟩ ⟨y, hy, ey⟩
    obtain ⟨i, hi, hin⟩ := (mem_serialize hI.lenN).mp h1
    obtain ⟨j, hj, hjn⟩ := (mem_serialize hI.lenN).mp h2
    have e1 := hI.listed i _ hi x hx
    have e2 := hI.listed j _ hj y hy
    rw [ex] at e1; rw [ey, e1] at e2
    simp at e2
    subst e2
    rw [hi] at hj; rw [hin] at hjn
    simp at hj hjn
    exact Prod.ext hjn hj
  have hget : ∀ a, ∀ r ∈ serialize s, InRec L a r → ∃ i, (serialize s)[i]? = some r ∧ getIndex L s' a = some i := by
    intro a r hr ⟨x, hx, e⟩
    obtain ⟨i, hi⟩ := List.mem_iff_getElem?.mp hr
    have := hL.key i r hi x hx
    rw [e] at this
    exact ⟨i, hi, this⟩
  have hsome : ∀ a, (getIndex L s' a).isSome = (getIndex L s a).isSome := by
    intro a
    cases ha : getIndex L s a with
    | some i =>
      obtain ⟨r, hr, hin, _⟩ := hs a i ha
      obtain ⟨j, _, hj⟩ := hget a r hr hin
      rw [hj]; rfl
    | none =>
      cases ha' : getIndex L s' a with
      | none => rfl
      | some j =>
        exfalso
        obtain ⟨r, hr, x, hx, e⟩ := hs' a j ha'
        obtain ⟨i, hi, _⟩ := (mem_serialize hI.lenN).mp (List.mem_of_getElem? hr)
        have := hI.listed i _ hi x hx
        rw [e] at this
        unfold getIndex at ha
        rw [ha] at this; simp at this
  refine ⟨s', h1, ?_, ?_, hsome⟩
  · intro a b
    unfold areSynonyms
    rw [hsome a]
    cases ha : getIndex L s a with
    | none => simp
    | some i =>
      simp only [Option.isSome_some, Bool.and_true]
      obtain ⟨ra, hra, hina, hia, _⟩ := hs a i ha
      obtain ⟨ja, hja, hja'⟩ := hget a ra hra hina
      rw [hja']
      rw [decide_eq_decide]
      constructor
      · intro e
        obtain ⟨rb, hrb, hinb⟩ := hs' b ja e.symm
        rw [hja] at hrb
        simp at hrb; subst hrb
        obtain ⟨x, hx, ex⟩ := hinb
        have := hI.listed i _ hia x hx
        rw [ex] at this
        exact this.symm
      · intro e
        obtain ⟨rb, hrb, hinb, hib, _⟩ := hs b i e.symm
        rw [hia] at hib
        simp at hib
        have hinb' : InRec L b ra := by
          obtain ⟨x, hx, ex⟩ := hinb
          exact ⟨x, hib ▸ hx, ex⟩
        obtain ⟨x, hx, ex⟩ := hinb'
        have := hL.key ja ra hja x hx
        rw [ex] at this
        exact this.symm
  · intro a
    unfold nameOf
    cases ha : getIndex L s a with
    | none =>
      have := hsome a
      rw [ha] at this
      cases ha' : getIndex L s' a with
      | none => rfl
      | some j => rw [ha'] at this; simp at this
    | some i =>
      obtain ⟨r, hr, hin, _, hn⟩ := hs a i ha
      obtain ⟨j, hj, hj'⟩ := hget a r hr hin
      rw [hj']
      simp only
      rw [hn]
      exact hL.name j r hj

/-- the hypotheses of `C13_partial` hold after a history with a merge and a renaming; the reloaded list has
other indices -/
example : Reach exL (exRun exHist) ∧ (∀ r ∈ serialize (exRun exHist), r.2 ≠ []) ∧
    serialize (exRun exHist) = [(some 'd', ['a', 'b', 'B', 'c', 'd', 'e']), (some 'x', ['x', 'y', 'Z'])] ∧
    getIndex exL (exRun exHist) 'y' = some 2 ∧
    getIndex exL (fromJson exL ido (serialize (exRun exHist))).state 'y' = some 1 :=
  ⟨exReach, by decide +kernel, by decide +kernel, by decide +kernel, by decide +kernel⟩

/-- C13 fails: after `add_term('')`, which returns, the list cannot be loaded from its own serialisation. -/
theorem C13_fails : Reach exL (exRun [.addTerm 'a', .addTerm '_']) ∧
    (fromJson exL ido (serialize (exRun [.addTerm 'a', .addTerm '_']))).error? = some .keyError := by
  refine ⟨?_, by decide +kernel⟩
  exact .call (.addTerm '_') ido idn (.call (.addTerm 'a') ido idn .init trivial) trivial

end Syn
