import Verif.Lemmas.NewFlowable

/-!
C215–C217: the flowables of a Qdb.
-/

namespace NewF
open Syn Flw

/-- The states of the flowables of a Qdb: the records of a file are loaded (`from_json`, synlist.py:54-56: `add_set`, then
`set_name`), then flows are taken in; in any order, with any arguments, and whether or not the calls raise. -/
inductive Reach (L : Lex Str) : State Str → Prop
  | init : Reach L {}
  | load {s : State Str} (o : PyOrd Str) (terms : List Str) : Reach L s → Reach L (addSet L o (mergeSetF L) terms false s).state
  | name {s : State Str} (n : Str) : Reach L s → Reach L (setName L n s).state
  | add {s : State Str} (o : PyOrd Str) (terms : List Str) : Reach L s → Reach L (addNew L o terms s).state

variable {L : Lex Str}

theorem reach_good (hL : FLaw L) {s : State Str} (h : Reach L s) : Good s := by
  induction h with
  | init => exact good_init
  | load o terms _ ih => exact (keeps_addSet hL o terms false ih).good
  | @name s n _ ih =>
    unfold setName
    split
    · exact ih
    · exact ⟨ih.both, by simp [Out.state, ih.lenN], ih.lenC, ih.live, ih.lt, ih.half⟩
  | add o terms _ ih => exact (keeps_addNew hL o terms ih).good

/-! ### C215 -/

/-- C215. Taking in the terms of a flow never moves or forgets a term: a term that led to a flowable leads to the same flowable
afterwards, whether or not the call raises. -/
theorem C215_stable (hL : FLaw L) {s : State Str} (h : Reach L s) (o : PyOrd Str) (terms : List Str) {t : Str} {i : ℕ}
    (ht : getIndex L s t = some i) : getIndex L (addNew L o terms s).state t = some i :=
  (keeps_addNew hL o terms (reach_good hL h)).ext _ _ ht

/-- C215. If the call returns, every term given that is not empty and not a half-padded CAS number leads to a flowable, and
`find_flowables` finds it. -/
theorem C215_known (hL : FLaw L) {s : State Str} (h : Reach L s) (o : PyOrd Str) {terms : List Str} {r : Option ℕ} {s' : State Str}
    (hr : addNew L o terms s = .ok r s') {t : Str} (ht : t ∈ terms) (hb : t ≠ []) (hw : Whole L t) :
    ∃ i, getIndex L s' t = some i ∧ i ∈ findFlowables L terms s' := by
  have hk := keeps_addNew hL o terms (reach_good hL h)
  rw [hr] at hk
  obtain ⟨i, hi⟩ := hk.known rfl t ht (by rw [hL.blank]; exact hb) hw
  refine ⟨i, hi, ?_⟩
  unfold findFlowables
  rw [PySet.mem_ofList]
  exact List.mem_filterMap.mpr ⟨t, ht, hi⟩

/-- C215 fails for half-padded CAS numbers: a term such as '0050-00-0' is never known, not even when the call that brought it in
has returned. -/
theorem C215_half (hL : FLaw L) {s : State Str} (h : Reach L s) {t : Str} (hw : ¬ Whole L t) : getIndex L s t = none := by
  unfold Whole at hw
  simp only [not_forall, not_or] at hw
  obtain ⟨p, hp, h1, h2⟩ := hw
  exact (reach_good hL h).half _ p hp h1 h2

/-! ### C216: the flowable that is returned -/

theorem clean_merge (hL : FLaw L) {s : State Str} (h : Good s) {index : ℕ} (hi : index < s.items.length) {ts us terms : List Str}
    (hts : ∀ t, t ∈ ts ↔ t ∈ us) (hu : ∀ t, t ∈ us ↔ t ∈ terms ∧ getIndex L s t = none)
    (hcl : ∀ t ∈ terms, Clean L t ∧ Whole L t) (hc : ¬ Clash (s.cas[index]?).join us) :
    ∃ s', ((mergeSetF L ts index s).bind fun _ s2 => (.ok (some index) s2 : Out (State Str) Err (Option ℕ))) = .ok (some index) s' ∧
      ∀ t ∈ terms, t ≠ [] → getIndex L s t = none → getIndex L s' t = some index := by
  have hcl' : ∀ t ∈ ts, Clean L t ∧ Whole L t ∧ getIndex L s t = none := by
    intro t ht
    have h1 := (hu t).mp ((hts t).mp ht)
    exact ⟨(hcl t h1.1).1, (hcl t h1.1).2, h1.2⟩
  obtain ⟨s', e⟩ := mergeSetF_ok hL h hi hcl' (by rw [clash_congr hts]; exact hc)
  have hm := mergeSetF_many hL ts h hi
  rw [e] at hm ⊢
  refine ⟨s', rfl, fun t ht hb hn => ?_⟩
  exact hm.known rfl t ((hts t).mpr ((hu t).mpr ⟨ht, hn⟩)) (by rw [hL.blank]; exact hb) (hcl t ht).2

theorem new_item (hL : FLaw L) {s : State Str} (h : Good s) (o : PyOrd Str) {terms : List Str}
    (hcl : ∀ t ∈ terms, Clean L t ∧ Whole L t) (hne : unknown L s terms ≠ []) (hc : ¬ Clash none (unknown L s terms)) :
    ∃ s', newSet L (mergeSetF L) (unmatchedOf L o terms s) s = .ok (some s.items.length) s' ∧
      ∀ t ∈ terms, t ≠ [] → getIndex L s t = none → getIndex L s' t = some s.items.length := by
  have hne' : unmatchedOf L o terms s ≠ [] := by
    intro e
    apply hne
    rw [List.eq_nil_iff_forall_not_mem]
    intro t ht
    have := mem_unmatched (o := o).mpr ht
    rw [e] at this; simp at this
  rw [newSet_eq hne' (fun t ht => (mem_unknown.mp (mem_unmatched.mp ht)).2)]
  exact clean_merge hL (newItem_good h) (newItem_lt s) (us := unknown L s terms) (terms := terms) (fun t => mem_unmatched)
    (fun t => mem_unknown) hcl (by rw [newItem_cas h]; exact hc)

theorem new_item_clash {s : State Str} (h : Good s) (o : PyOrd Str) {terms : List Str} (hc : Clash none (unknown L s terms)) :
    newSet L (mergeSetF L) (unmatchedOf L o terms s) s = .err .conflictingCas (newItem s).2 := by
  have hne' : unmatchedOf L o terms s ≠ [] := by
    intro e
    obtain ⟨a, ha, _⟩ := hc
    have := mem_unmatched (o := o).mpr ha
    rw [e] at this; simp at this
  rw [newSet_eq hne' (fun t ht => (mem_unknown.mp (mem_unmatched.mp ht)).2)]
  rw [mergeSetF_clash (newItem_good h) (newItem_lt s)
    (by rw [newItem_cas h, clash_congr (fun t => mem_unmatched)]; exact hc)]
  rfl

/-- C216. No term is known, and the CAS numbers among the terms agree: a new flowable is made, and every term leads to it. -/
theorem C216_new (hL : FLaw L) {s : State Str} (h : Reach L s) (o : PyOrd Str) {terms : List Str} (hne : terms ≠ [])
    (hcl : ∀ t ∈ terms, Clean L t ∧ Whole L t) (hu : ∀ t ∈ terms, getIndex L s t = none) (hc : ¬ Clash none terms) :
    ∃ s', addNew L o terms s = .ok (some s.items.length) s' ∧ ∀ t ∈ terms, t ≠ [] → getIndex L s' t = some s.items.length := by
  have hg := reach_good hL h
  have he : unknown L s terms = terms := by
    unfold unknown; rw [List.filter_eq_self]; intro t ht; simp [hu t ht]
  obtain ⟨s', e, hk⟩ := new_item hL hg o hcl (by rw [he]; exact hne) (by rw [he]; exact hc)
  refine ⟨s', ?_, fun t ht hb => hk t ht hb (hu t ht)⟩
  rcases addSet_cases (L := L) o terms true s with ⟨_, e'⟩ | ⟨hf, _⟩ | ⟨_, i, ⟨t, ht, hk⟩, _, _⟩ | ⟨_, ⟨a, ha, _, _, i, _, hk, _⟩, _⟩
  · unfold addNew
    rw [e', e]
  · simp at hf
  · rw [hu t ht] at hk; simp at hk
  · rw [hu a ha] at hk; simp at hk

/-- C216. The known terms all lead to one flowable, and the CAS numbers among the other terms agree with each other and with that
of the flowable: the flowable is returned, and every term leads to it. -/
theorem C216_one (hL : FLaw L) {s : State Str} (h : Reach L s) (o : PyOrd Str) {terms : List Str} {i : ℕ}
    (hcl : ∀ t ∈ terms, Clean L t ∧ Whole L t) (hi : ∃ t ∈ terms, getIndex L s t = some i)
    (ho : ∀ t ∈ terms, ∀ j, getIndex L s t = some j → j = i) (hc : ¬ Clash (s.cas[i]?).join (unknown L s terms)) :
    ∃ s', addNew L o terms s = .ok (some i) s' ∧ ∀ t ∈ terms, t ≠ [] → getIndex L s' t = some i := by
  have hg := reach_good hL h
  obtain ⟨t0, ht0, hk0⟩ := hi
  rcases addSet_cases (L := L) o terms true s with ⟨hn, _⟩ | ⟨hf, _⟩ | ⟨_, i', ⟨t, ht, hk⟩, _, e⟩ |
    ⟨_, ⟨a, ha, b, hb, j, j', h1, h2, hne⟩, _⟩
  · rw [hn t0 ht0] at hk0; simp at hk0
  · simp at hf
  · have := ho t ht i' hk
    subst this
    obtain ⟨s', e', hk'⟩ := clean_merge hL hg (hg.lt _ _ hk) (ts := unmatchedOf L o terms s) (us := unknown L s terms)
      (terms := terms) (fun t => mem_unmatched) (fun t => mem_unknown) hcl hc
    have hadd : addNew L o terms s = .ok (some i') s' := by unfold addNew; rw [e, e']
    refine ⟨s', hadd, fun t ht hb => ?_⟩
    cases hkt : getIndex L s t with
    | none => exact hk' t ht hb hkt
    | some j =>
      have h3 := C215_stable hL h o terms hkt
      rw [hadd] at h3
      rw [← ho t ht j hkt]; exact h3
  · exact absurd (by rw [ho a ha j h1, ho b hb j' h2]) hne

/-- C216. The known terms all lead to one flowable, the CAS numbers among the other terms agree, but not with that of the
flowable: a new flowable is made for the other terms, so the terms of one flow lead to two flowables. -/
theorem C216_one_clash (hL : FLaw L) {s : State Str} (h : Reach L s) (o : PyOrd Str) {terms : List Str} {i : ℕ}
    (hcl : ∀ t ∈ terms, Clean L t ∧ Whole L t) (hi : ∃ t ∈ terms, getIndex L s t = some i)
    (ho : ∀ t ∈ terms, ∀ j, getIndex L s t = some j → j = i) (hc : Clash (s.cas[i]?).join (unknown L s terms))
    (hc' : ¬ Clash none (unknown L s terms)) :
    ∃ s', addNew L o terms s = .ok (some s.items.length) s' ∧
      (∀ t ∈ terms, t ≠ [] → getIndex L s t = none → getIndex L s' t = some s.items.length) ∧
      (∀ t ∈ terms, getIndex L s t ≠ none → getIndex L s' t = some i) ∧ i < s.items.length := by
  have hg := reach_good hL h
  obtain ⟨t0, ht0, hk0⟩ := hi
  have hne : unknown L s terms ≠ [] := by
    intro e; obtain ⟨a, ha, _⟩ := hc; rw [e] at ha; simp at ha
  rcases addSet_cases (L := L) o terms true s with ⟨hn, _⟩ | ⟨hf, _⟩ | ⟨_, i', ⟨t, ht, hk⟩, _, e⟩ |
    ⟨_, ⟨a, ha, b, hb, j, j', h1, h2, hne⟩, _⟩
  · rw [hn t0 ht0] at hk0; simp at hk0
  · simp at hf
  · have := ho t ht i' hk
    subst this
    have e1 : addSet L o (mergeSetF L) terms true s = .err .conflictingCas s := by
      rw [e, mergeSetF_clash hg (hg.lt _ _ hk) (by rw [clash_congr (fun t => mem_unmatched)]; exact hc)]; rfl
    obtain ⟨s', e2, hk'⟩ := new_item hL hg o hcl hne hc'
    have e3 : addSet L o (mergeSetF L) terms false s = newSet L (mergeSetF L) (unmatchedOf L o terms s) s := by
      rcases addSet_cases (L := L) o terms false s with ⟨_, e⟩ | ⟨_, e⟩ | ⟨hf, _⟩ | ⟨hf, _⟩
      · exact e
      · exact e
      · simp at hf
      · simp at hf
    have hadd : addNew L o terms s = .ok (some s.items.length) s' := by
      unfold addNew; rw [e1]; simp only; rw [e3, e2]
    refine ⟨s', hadd, hk', fun t ht hn => ?_, hg.lt _ _ hk⟩
    cases hkt : getIndex L s t with
    | none => exact absurd hkt hn
    | some j =>
      have h3 := C215_stable hL h o terms hkt
      rw [hadd] at h3
      rw [← ho t ht j hkt]; exact h3
  · exact absurd (by rw [ho a ha j h1, ho b hb j' h2]) hne

/-- C216. The known terms lead to several flowables. If no other terms are left, nothing is changed and None is returned. If the CAS
numbers among the other terms agree with each other and with that of the flowable with the highest index, that flowable is
returned, and the other terms lead to it. -/
theorem C216_several (hL : FLaw L) {s : State Str} (h : Reach L s) (o : PyOrd Str) {terms : List Str} {i j : ℕ}
    (hcl : ∀ t ∈ terms, Clean L t ∧ Whole L t) (hi : ∃ t ∈ terms, getIndex L s t = some i)
    (hj : ∃ t ∈ terms, getIndex L s t = some j) (hlt : j < i)
    (hmax : ∀ t ∈ terms, ∀ k, getIndex L s t = some k → k ≤ i) :
    ((∀ t ∈ terms, getIndex L s t ≠ none) → addNew L o terms s = .ok none s) ∧
    ((∃ t ∈ terms, getIndex L s t = none) → ¬ Clash (s.cas[i]?).join (unknown L s terms) →
      ∃ s', addNew L o terms s = .ok (some i) s' ∧ ∀ t ∈ terms, t ≠ [] → getIndex L s t = none → getIndex L s' t = some i) ∧
    (Clash (s.cas[i]?).join (unknown L s terms) → addNew L o terms s = .err .conflictingCas s) := by
  have hg := reach_good hL h
  obtain ⟨a, ha, hka⟩ := hi
  obtain ⟨b, hb, hkb⟩ := hj
  have e1 : addSet L o (mergeSetF L) terms true s = .err .inconsistent s := by
    rcases addSet_cases (L := L) o terms true s with ⟨hn, _⟩ | ⟨hf, _⟩ | ⟨_, i', ⟨t, ht, hk⟩, ho, e⟩ | ⟨_, _, e⟩
    · rw [hn a ha] at hka; simp at hka
    · simp at hf
    · have h1 := ho a ha i hka
      have h2 := ho b hb j hkb
      omega
    · exact e
  have hh : highest L terms s = i := highest_spec terms s ⟨a, ha, hka⟩ hmax
  have hmem : ∀ t, t ∈ o.f (PySet.ofList (unmatchedOf L o terms s)) ↔ t ∈ unknown L s terms := by
    intro t; rw [o.mem, PySet.mem_ofList]; exact mem_unmatched
  unfold addNew
  rw [e1]
  simp only
  rw [hh]
  refine ⟨?_, ?_, ?_⟩
  · intro hall
    have : unmatchedOf L o terms s = [] := by
      rw [List.eq_nil_iff_forall_not_mem]
      intro t ht
      have := mem_unknown.mp (mem_unmatched.mp ht)
      exact hall t this.1 this.2
    rw [this]; rfl
  · rintro ⟨t, ht, hkt⟩ hc
    have : (unmatchedOf L o terms s).isEmpty = false := by
      cases hem : (unmatchedOf L o terms s).isEmpty with
      | false => rfl
      | true =>
        have := mem_unmatched (o := o).mpr (mem_unknown.mpr ⟨ht, hkt⟩)
        rw [List.isEmpty_iff.mp hem] at this; simp at this
    rw [this]
    simp only [Bool.false_eq_true, if_false]
    exact clean_merge hL hg (hg.lt _ _ hka) hmem (fun t => mem_unknown) hcl hc
  · intro hc
    have : (unmatchedOf L o terms s).isEmpty = false := by
      cases hem : (unmatchedOf L o terms s).isEmpty with
      | false => rfl
      | true =>
        obtain ⟨x, hx, _⟩ := hc
        have := mem_unmatched (o := o).mpr hx
        rw [List.isEmpty_iff.mp hem] at this; simp at this
    rw [this]
    simp only [Bool.false_eq_true, if_false]
    rw [mergeSetF_clash hg (hg.lt _ _ hka) (by rw [clash_congr hmem]; exact hc)]
    rfl

/-! ### C217: calls that raise -/

/-- C217. Two different CAS numbers among the unknown terms, and the known terms lead to one flowable at most: the call raises
ConflictingCas every time, and every time it leaves a new flowable that has no terms. -/
theorem C217_two_numbers (hL : FLaw L) {s : State Str} (h : Reach L s) (o : PyOrd Str) {terms : List Str}
    (ho : ∀ a ∈ terms, ∀ b ∈ terms, ∀ i j, getIndex L s a = some i → getIndex L s b = some j → i = j)
    (hc : Clash none (unknown L s terms)) :
    ∃ s', addNew L o terms s = .err .conflictingCas s' ∧ s'.dict = s.dict ∧ s.items.length < s'.items.length ∧
      (s'.items.getLast? = some (some [])) := by
  have hg := reach_good hL h
  have hlast : (newItem s).2.items.getLast? = some (some []) := by simp [newItem]
  have e3 : ∀ s : State Str, addSet L o (mergeSetF L) terms false s = newSet L (mergeSetF L) (unmatchedOf L o terms s) s := by
    intro s
    rcases addSet_cases (L := L) o terms false s with ⟨_, e⟩ | ⟨_, e⟩ | ⟨hf, _⟩ | ⟨hf, _⟩
    · exact e
    · exact e
    · simp at hf
    · simp at hf
  rcases addSet_cases (L := L) o terms true s with ⟨hn, e⟩ | ⟨hf, _⟩ | ⟨_, i, ⟨t, ht, hk⟩, _, e⟩ |
    ⟨_, ⟨a, ha, b, hb, j, j', h1, h2, hne⟩, _⟩
  · -- nothing found: two calls, two new items
    have e1 := new_item_clash hg o hc
    have hg2 := newItem_good hg
    have e2 := new_item_clash (L := L) hg2 o (terms := terms) hc
    refine ⟨(newItem (newItem s).2).2, ?_, rfl, ?_, by simp [newItem]⟩
    · unfold addNew
      rw [e, e1]
      simp only
      rw [e3, e2]
    · simp [newItem]
  · simp at hf
  · have hc2 : Clash (s.cas[i]?).join (unknown L s terms) := by
      obtain ⟨x, hx, hxc, hor⟩ := hc
      rcases hor with hor | ⟨c, h1, _⟩
      · exact ⟨x, hx, hxc, Or.inl hor⟩
      · simp at h1
    have e1 : addSet L o (mergeSetF L) terms true s = .err .conflictingCas s := by
      rw [e, mergeSetF_clash hg (hg.lt _ _ hk) (by rw [clash_congr (fun t => mem_unmatched)]; exact hc2)]; rfl
    have e2 := new_item_clash hg o hc
    refine ⟨(newItem s).2, ?_, rfl, newItem_lt s, hlast⟩
    unfold addNew
    rw [e1]
    simp only
    rw [e3, e2]
  · exact absurd (ho a ha b hb j j' h1 h2) hne

/-- C217. A half-padded CAS number whose plain form is known, among terms that are not known: the call never returns, so a flow
that gives the number of a known flowable in this way cannot be taken in under a new name. -/
theorem C217_half (hL : FLaw L) {s : State Str} (h : Reach L s) (o : PyOrd Str) {terms : List Str}
    (hu : ∀ t ∈ terms, getIndex L s t = none) {t p : Str} {i : ℕ} (ht : t ∈ terms) (hb : t ≠ []) (hp : pad (L.san t) = some p)
    (hk : s.dict.get? p = some i) : ∃ e, (addNew L o terms s).error? = some e := by
  have hg := reach_good hL h
  have key : ∀ (m : Bool) (s : State Str), Good s → getIndex L s t = none → s.dict.get? p = some i → i < s.items.length →
      ∃ e, (newSet L (mergeSetF L) (unmatchedOf L o terms s) s).error? = some e := by
    intro m s hg hn hk hlt
    have hmem := mem_unmatched (o := o).mpr (mem_unknown.mpr ⟨ht, hn⟩)
    have hne : unmatchedOf L o terms s ≠ [] := by intro e; rw [e] at hmem; simp at hmem
    rw [newSet_eq hne (fun t ht => (mem_unknown.mp (mem_unmatched.mp ht)).2), bind_err _ fun _ => some s.items.length]
    have hm := mergeSetF_many hL (unmatchedOf L o terms s) (newItem_good hg) (newItem_lt s)
    cases he : (mergeSetF L (unmatchedOf L o terms s) s.items.length (newItem s).2).error? with
    | some e => exact ⟨e, rfl⟩
    | none =>
      have h1 := hm.casKnown he t hmem (by rw [hL.blank]; exact hb) p hp
      have h2 := hm.ext p i hk
      rw [h1] at h2
      simp at h2
      omega
  have hlt := hg.lt _ _ hk
  have e0 : ∀ m, (∀ t ∈ terms, getIndex L s t = none) → addSet L o (mergeSetF L) terms m s =
      newSet L (mergeSetF L) (unmatchedOf L o terms s) s := by
    intro m hu
    rcases addSet_cases (L := L) o terms m s with ⟨_, e⟩ | ⟨_, e⟩ | ⟨_, i, ⟨t, ht, hk⟩, _, _⟩ | ⟨_, ⟨a, ha, _, _, i, _, hk, _⟩, _⟩
    · exact e
    · exact e
    · rw [hu t ht] at hk; simp at hk
    · rw [hu a ha] at hk; simp at hk
  obtain ⟨e, he⟩ := key true s hg (hu t ht) hk hlt
  have hks := keeps_newSet (o := o) (terms := terms) hL hg
  unfold addNew
  rw [e0 true hu]
  cases hr : newSet L (mergeSetF L) (unmatchedOf L o terms s) s with
  | ok r s' => rw [hr] at he; simp [Out.error?] at he
  | err e' s' =>
    rw [hr] at hks
    have hhalf : getIndex L s' t = none ∨ getIndex L s' t ≠ none := by tauto
    cases e' with
    | conflictingCas =>
      simp only
      have hgs : Good s' := hks.good
      have hks' : s'.dict.get? p = some i := hks.ext p i hk
      have hlt' := hgs.lt _ _ hks'
      have e3 : addSet L o (mergeSetF L) terms false s' = newSet L (mergeSetF L) (unmatchedOf L o terms s') s' := by
        rcases addSet_cases (L := L) o terms false s' with ⟨_, e⟩ | ⟨_, e⟩ | ⟨hf, _⟩ | ⟨hf, _⟩
        · exact e
        · exact e
        · simp at hf
        · simp at hf
      rw [e3]
      apply key false s' hgs _ hks' hlt'
      by_contra hne
      cases hkt : getIndex L s' t with
      | none => exact hne hkt
      | some j =>
        -- a known CAS number was known under its padded form, at the same place
        have h1 := known_pad hL hgs (t := t) hkt hp
        rw [hks'] at h1
        simp at h1
        subst h1
        -- but then the plain form was known before, and so was the term
        have hw : Whole L t := by
          intro q hq
          by_contra hw
          simp only [not_or] at hw
          rw [getIndex, hgs.half _ q hq hw.1 hw.2] at hkt
          simp at hkt
        have h2 := hu t ht
        unfold getIndex at h2
        rcases hw p hp with e1 | e1
        · rw [e1, hk] at h2; simp at h2
        · rw [e1, ← trim_idem p, pad_trim (pad_pad hp), trim_idem, pad_trim hp, ← hg.both _ p hp (hL.clean t), hk] at h2
          simp at h2
    | inconsistent =>
      exfalso
      by_cases hne : unmatchedOf L o terms s = []
      · rw [hne, newSet_nil] at hr; simp at hr
      · rw [newSet_eq hne (fun t ht => (mem_unknown.mp (mem_unmatched.mp ht)).2)] at hr
        have hm := (mergeSetF_many hL (unmatchedOf L o terms s) (newItem_good hg) (newItem_lt s)).err .inconsistent
        rw [← bind_err _ fun _ => some s.items.length, hr] at hm
        simpa using hm rfl
    | keyError => exact ⟨_, rfl⟩
    | indexError => exact ⟨_, rfl⟩
    | attributeError => exact ⟨_, rfl⟩
    | typeError => exact ⟨_, rfl⟩
    | termFound => exact ⟨_, rfl⟩
    | cannotSplit => exact ⟨_, rfl⟩
    | notACas => exact ⟨_, rfl⟩

/-! ### examples -/

section Examples

instance (L : Lex Str) (t : Str) : Decidable (Whole L t) :=
  decidable_of_iff ((pad (L.san t)).all fun p => decide (L.san t = p ∨ L.san t = trim p)) (by
    unfold Whole
    cases pad (L.san t) <;> simp)

instance (L : Lex Str) (t : Str) : Decidable (Clean L t) := by unfold Clean; infer_instance

instance (t : Str) : Decidable (CasShape t) := decidable_of_iff _ (isCas_iff t)

instance (c0 : Option Str) (ts : List Str) : Decidable (Clash c0 ts) :=
  decidable_of_iff (∃ a ∈ ts, CasShape a ∧ ((∃ b ∈ ts, CasShape b ∧ trim a ≠ trim b) ∨ (c0.any fun c => decide (trim c ≠ trim a)))) (by
    unfold Clash
    cases c0 <;> simp)

/-- terms as text -/
def w (l : List String) : List Str := l.map String.toList

/-- what is taken in, in turn -/
def exRunQ (l : List (List String)) : State Str :=
  l.foldl (fun s t => (addNew asciiLex (PyOrd.id _) (w t) s).state) {}

theorem exReach (l : List (List String)) : Reach asciiLex (exRunQ l) := by
  unfold exRunQ
  have : ∀ s, Reach asciiLex s → Reach asciiLex (l.foldl (fun s t => (addNew asciiLex (PyOrd.id _) (w t) s).state) s) := by
    induction l with
    | nil => exact fun s h => h
    | cons t l ih => exact fun s h => ih _ (.add _ _ h)
  exact this _ .init

/-- formaldehyde and ethanol -/
def two : List (List String) := [["ei/1", "Formaldehyde", "50-00-0"], ["ei/2", "Ethanol", "000064-17-5"]]

/-- C215: a third flow, under a name that is known; its link is the only new term -/
example : Reach asciiLex (exRunQ two) ∧ getIndex asciiLex (exRunQ two) "ethanol ".toList = some 1 ∧
    ((addNew asciiLex (PyOrd.id _) (w ["us/7", "ETHANOL", "64-17-5"]) (exRunQ two)).value? = some (some 1)) ∧
    (∀ t ∈ w ["us/7", "ETHANOL", "64-17-5"], t ≠ [] ∧ Whole asciiLex t) ∧
    getIndex asciiLex (addNew asciiLex (PyOrd.id _) (w ["us/7", "ETHANOL", "64-17-5"]) (exRunQ two)).state "us/7".toList = some 1 :=
  ⟨exReach _, by decide +kernel, by decide +kernel, by decide +kernel, by decide +kernel⟩

/-- C215: a half-padded number; the call returns, the flow is taken in, the number is not known -/
example : ¬ Whole asciiLex "0067-56-1".toList ∧
    (addNew asciiLex (PyOrd.id _) (w ["us/8", "Methanol", "0067-56-1"]) (exRunQ two)).value? = some (some 2) ∧
    getIndex asciiLex (addNew asciiLex (PyOrd.id _) (w ["us/8", "Methanol", "0067-56-1"]) (exRunQ two)).state "0067-56-1".toList = none :=
  ⟨by decide +kernel, by decide +kernel, by decide +kernel⟩

/-- C216_new -/
example : let ts := w ["us/8", "Methanol", "67-56-1", "000067-56-1"]; let s := exRunQ two
    ts ≠ [] ∧ (∀ t ∈ ts, Clean asciiLex t ∧ Whole asciiLex t) ∧ (∀ t ∈ ts, getIndex asciiLex s t = none) ∧ ¬ Clash none ts ∧
    s.items.length = 2 := by decide +kernel

/-- C216_one -/
example : let ts := w ["us/7", "Ethanol", "grain alcohol"]; let s := exRunQ two
    (∀ t ∈ ts, Clean asciiLex t ∧ Whole asciiLex t) ∧ (∃ t ∈ ts, getIndex asciiLex s t = some 1) ∧
    (∀ t ∈ ts, getIndex asciiLex s t = none ∨ getIndex asciiLex s t = some 1) ∧
    ¬ Clash (s.cas[1]?).join (unknown asciiLex s ts) := by decide +kernel

/-- C216_one_clash: ethanol under another number -/
example : let ts := w ["us/9", "Ethanol", "67-56-1"]; let s := exRunQ two
    (∀ t ∈ ts, Clean asciiLex t ∧ Whole asciiLex t) ∧ (∃ t ∈ ts, getIndex asciiLex s t = some 1) ∧
    (∀ t ∈ ts, getIndex asciiLex s t = none ∨ getIndex asciiLex s t = some 1) ∧
    Clash (s.cas[1]?).join (unknown asciiLex s ts) ∧ ¬ Clash none (unknown asciiLex s ts) ∧
    (addNew asciiLex (PyOrd.id _) ts s).value? = some (some 2) ∧
    findFlowables asciiLex ts (addNew asciiLex (PyOrd.id _) ts s).state = [2, 1] := by decide +kernel

/-- C216_several: the name of one flowable with the number of the other -/
example : let ts := w ["us/9", "Formaldehyde", "64-17-5"]; let s := exRunQ two
    (∀ t ∈ ts, Clean asciiLex t ∧ Whole asciiLex t) ∧ (∃ t ∈ ts, getIndex asciiLex s t = some 1) ∧
    (∃ t ∈ ts, getIndex asciiLex s t = some 0) ∧ (∃ t ∈ ts, getIndex asciiLex s t = none) ∧
    ¬ Clash (s.cas[1]?).join (unknown asciiLex s ts) ∧
    (addNew asciiLex (PyOrd.id _) ts s).value? = some (some 1) ∧
    (addNew asciiLex (PyOrd.id _) (w ["Formaldehyde", "64-17-5"]) s).value? = some none ∧
    Clash (s.cas[1]?).join (unknown asciiLex s (w ["Formaldehyde", "Ethanol", "67-56-1"])) ∧
    (addNew asciiLex (PyOrd.id _) (w ["Formaldehyde", "Ethanol", "67-56-1"]) s).error? = some .conflictingCas := by
  decide +kernel

/-- C217_two_numbers -/
example : let ts := w ["us/9", "Xylenes", "95-47-6", "108-38-3"]; let s := exRunQ two
    (∀ t ∈ ts, getIndex asciiLex s t = none) ∧ Clash none (unknown asciiLex s ts) ∧
    (addNew asciiLex (PyOrd.id _) ts s).state.items.length = 4 := by decide +kernel

/-- C217_half -/
example : let ts := w ["us/9", "Formalin", "0050-00-0"]; let s := exRunQ two
    (∀ t ∈ ts, getIndex asciiLex s t = none) ∧ pad (asciiLex.san "0050-00-0".toList) = some "000050-00-0".toList ∧
    s.dict.get? "000050-00-0".toList = some 0 ∧ (addNew asciiLex (PyOrd.id _) ts s).error? = some .termFound := by decide +kernel

/-- the terms of a flow with a CAS number, and of one without -/
example : flowTerms "ei/1".toList "Formaldehyde".toList (some "50-00-0".toList) = w ["ei/1", "Formaldehyde", "50-00-0"] ∧
    flowTerms "ei/1".toList "Formaldehyde".toList (some "n/a".toList) = w ["ei/1", "Formaldehyde"] := by decide +kernel

end Examples

end NewF
