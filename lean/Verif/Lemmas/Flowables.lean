import Verif.Props.Cas
import Verif.Lemmas.SynList

/-! Invariant of Flowables states. -/

set_option linter.unusedSectionVars false

namespace Flw
open Syn

/-- What the CAS logic needs to know about `_sanitize` (strip and lower, synlist.py:90-94): it leaves CAS
numbers alone, strips newlines, and the empty string is the empty list. -/
structure FLaw (L : Lex Str) : Prop where
  fix : ∀ c, isCas c = true → c.getLast? ≠ some '\n' → L.san c = c
  clean : ∀ t, (L.san t).getLast? ≠ some '\n'
  blank : L.blank = []

structure CInv (L : Lex Str) (s : State Str) : Prop where
  lenC : s.cas.length = s.items.length
  lt : ∀ k i, s.dict.get? k = some i → i < s.items.length
  key : ∀ k i l, s.dict.get? k = some i → isCas k = true → s.items[i]? = some (some l) →
    ∃ c, s.cas[i]? = some (some c) ∧ trim c = trim k
  two : ∀ k k' i, s.dict.get? k = some i → s.dict.get? k' = some i → isCas k = true → isCas k' = true →
    trim k = trim k'
  list : ∀ (i : ℕ) l, s.items[i]? = some (some l) → ∀ t ∈ l, isCas (L.san t) = true →
    ∃ c, s.cas[i]? = some (some c) ∧ trim c = trim (L.san t)

variable {L : Lex Str}

theorem cinv_init : CInv L {} := by constructor <;> simp

theorem cinv_names {s : State Str} (h : CInv L s) (n : List (Option Str)) : CInv L { s with names := n } :=
  ⟨h.lenC, h.lt, h.key, h.two, h.list⟩

theorem pad_trim {k p : Str} (h : pad k = some p) : trim p = trim k := ((C14_pad_trim k).2.1 p h).2.2.2.2.1

/-- recording a compatible CAS number -/
theorem cinv_setCas {s : State Str} (h : CInv L s) {index : ℕ} {c0 : Option Str} (hc : s.cas[index]? = some c0)
    {k : Option Str} (hk : ∀ c, c0 = some c → ∃ k', k = some k' ∧ trim k' = trim c) :
    CInv L { s with cas := s.cas.set index k } := by
  have hlt := (List.getElem?_eq_some_iff.mp hc).1
  have hcas : ∀ (i : ℕ) c, s.cas[i]? = some (some c) →
      ∃ c', (s.cas.set index k)[i]? = some (some c') ∧ trim c' = trim c := by
    intro i c hi
    by_cases e : index = i
    · subst e
      rw [hc] at hi
      simp at hi
      obtain ⟨k', h1, h2⟩ := hk c hi
      exact ⟨k', by rw [List.getElem?_set]; simp [hlt, h1], h2⟩
    · exact ⟨c, by rw [List.getElem?_set, if_neg e]; exact hi, rfl⟩
  refine ⟨by simp [h.lenC], h.lt, ?_, h.two, ?_⟩
  · intro k i l h1 h2 h3
    obtain ⟨c, h4, h5⟩ := h.key k i l h1 h2 h3
    obtain ⟨c', h6, h7⟩ := hcas i c h4
    exact ⟨c', h6, h7.trans h5⟩
  · intro i l h1 t ht h2
    obtain ⟨c, h4, h5⟩ := h.list i l h1 t ht h2
    obtain ⟨c', h6, h7⟩ := hcas i c h4
    exact ⟨c', h6, h7.trans h5⟩

/-- listing a term -/
theorem cinv_addList {s : State Str} (h : CInv L s) {index : ℕ} {l : List Str}
    (hl : s.items[index]? = some (some l)) {t : Str}
    (ht : isCas (L.san t) = true → ∃ c, s.cas[index]? = some (some c) ∧ trim c = trim (L.san t)) :
    CInv L { s with items := s.items.set index (some (PySet.add l t)) } := by
  have hlt := (List.getElem?_eq_some_iff.mp hl).1
  have hset : ∀ (i : ℕ) l', (s.items.set index (some (PySet.add l t)))[i]? = some (some l') →
      ∃ l0, s.items[i]? = some (some l0) ∧ ∀ x ∈ l', x ∈ l0 ∨ (i = index ∧ x = t) := by
    intro i l' hi
    rw [List.getElem?_set] at hi
    split at hi
    · rename_i e
      subst e
      simp [hlt] at hi
      subst hi
      exact ⟨l, hl, by intro x hx; simpa using hx⟩
    · exact ⟨l', hi, fun x hx => Or.inl hx⟩
  refine ⟨by simp [h.lenC], by simpa using h.lt, ?_, h.two, ?_⟩
  · intro k i l' h1 h2 h3
    obtain ⟨l0, h4, _⟩ := hset i l' h3
    exact h.key k i l0 h1 h2 h4
  · intro i l' hi x hx hcx
    obtain ⟨l0, h4, h5⟩ := hset i l' hi
    rcases h5 x hx with h5 | ⟨e1, e2⟩
    · exact h.list i l0 h4 x h5 hcx
    · subst e1 e2; exact ht hcx

/-- a new key for a live item -/
theorem cinv_setDict {s : State Str} (h : CInv L s) {index : ℕ} {l : List Str}
    (hl : s.items[index]? = some (some l)) {k : Str}
    (hk : isCas k = true → ∃ c, s.cas[index]? = some (some c) ∧ trim c = trim k) :
    CInv L { s with dict := s.dict.set k index } := by
  have hkey : ∀ k' i, (s.dict.set k index).get? k' = some i →
      (k' = k ∧ i = index) ∨ s.dict.get? k' = some i := by
    intro k' i h1
    rw [Dict.get?_set] at h1
    split at h1
    · rename_i e; simp at h1; exact Or.inl ⟨e.symm, h1.symm⟩
    · exact Or.inr h1
  have hkeyc : ∀ k' i l, (s.dict.set k index).get? k' = some i → isCas k' = true → s.items[i]? = some (some l) →
      ∃ c, s.cas[i]? = some (some c) ∧ trim c = trim k' := by
    intro k' i l h1 h2 h3
    rcases hkey k' i h1 with ⟨e1, e2⟩ | h1
    · subst e1 e2; exact hk h2
    · exact h.key k' i l h1 h2 h3
  refine ⟨h.lenC, ?_, hkeyc, ?_, h.list⟩
  · intro k' i h1
    rcases hkey k' i h1 with ⟨e1, e2⟩ | h1
    · subst e2; exact (List.getElem?_eq_some_iff.mp hl).1
    · exact h.lt k' i h1
  · intro k1 k2 i h1 h2 h3 h4
    by_cases hi : i = index
    · subst hi
      obtain ⟨c1, e1, e2⟩ := hkeyc k1 i l h1 h3 hl
      obtain ⟨c2, e3, e4⟩ := hkeyc k2 i l h2 h4 hl
      rw [e1] at e3; simp at e3; subst e3
      exact e2.symm.trans e4
    · rcases hkey k1 i h1 with ⟨_, e⟩ | h1
      · exact absurd e hi
      · rcases hkey k2 i h2 with ⟨_, e⟩ | h2
        · exact absurd e hi
        · exact h.two k1 k2 i h1 h2 h3 h4

/-- the inherited `_new_term`, on a term whose CAS number is recorded -/
theorem cinv_newTerm {s : State Str} (h : CInv L s) {index : ℕ} {t : Str}
    (ht : isCas (L.san t) = true → ∃ c, s.cas[index]? = some (some c) ∧ trim c = trim (L.san t)) :
    CInv L (newTerm L t index s).state ∧ (newTerm L t index s).state.cas = s.cas := by
  unfold newTerm
  split
  · exact ⟨h, rfl⟩
  · simp only
    split
    · exact ⟨h, rfl⟩
    · exact ⟨h, rfl⟩
    · rename_i l hl
      have hlt := (List.getElem?_eq_some_iff.mp hl).1
      have h1 := cinv_addList h hl ht
      have hl1 : (s.items.set index (some (PySet.add l t)))[index]? = some (some (PySet.add l t)) := by
        rw [List.getElem?_set]; simp [hlt]
      split
      · split
        · exact ⟨h1, rfl⟩
        · exact ⟨h1, rfl⟩
      · have h2 := cinv_setDict h1 hl1 (k := L.san t) ht
        split
        · exact ⟨cinv_names h2 _, rfl⟩
        · exact ⟨h2, rfl⟩

theorem cinv_finish {s : State Str} (h : CInv L s) {index : ℕ} {t k : Str}
    (ht : isCas (L.san t) = true → ∃ c, s.cas[index]? = some (some c) ∧ trim c = trim (L.san t))
    (hk : isCas k = true → ∃ c, s.cas[index]? = some (some c) ∧ trim c = trim k) :
    CInv L (finish t k index s).state := by
  unfold finish
  split
  · exact h
  · exact h
  · rename_i l hl
    have hlt := (List.getElem?_eq_some_iff.mp hl).1
    have h1 := cinv_addList h hl ht
    have hl1 : (s.items.set index (some (PySet.add l t)))[index]? = some (some (PySet.add l t)) := by
      rw [List.getElem?_set]; simp [hlt]
    have h2 := cinv_setDict h1 hl1 (k := k) hk
    simp only
    split
    · exact cinv_names h2 _
    · split
      · exact cinv_names h2 _
      · exact h2
    · exact h2

theorem trim_ne_nil {k : Str} (h : isCas k = true) : trim k ≠ [] ∧ isCas (trim k) = true := by
  have h1 := (C14_pad_trim k).1.mpr ((isCas_iff k).mp h)
  obtain ⟨p, hp⟩ := Option.isSome_iff_exists.mp h1
  have h2 := ((C14_pad_trim k).2.1 p hp).2.2.2.2.2
  have h3 := (isCas_iff _).mpr h2
  refine ⟨?_, h3⟩
  intro e
  rw [e] at h3
  simp [isCas, matchUpTo] at h3

theorem trim_last {k : Str} (h : trim k ≠ []) : (trim k).getLast? = k.getLast? := by
  unfold trim at *
  have := List.takeWhile_append_dropWhile (p := (· == '0')) (l := k)
  rw [← this, List.getLast?_append, this]
  cases hd : List.dropWhile (· == '0') k with
  | nil => exact absurd hd h
  | cons a r => simp [List.getLast?_cons]

theorem trim_idem (k : Str) : trim (trim k) = trim k := (C14_pad_trim k).2.2

theorem san_trim (hL : FLaw L) {t k : Str} (h : isCas (L.san t) = true) (hk : pad (L.san t) = some k) :
    L.san (trim k) = trim (L.san t) := by
  rw [pad_trim hk]
  obtain ⟨h1, h2⟩ := trim_ne_nil h
  apply hL.fix _ h2
  rw [trim_last h1]
  exact hL.clean t

theorem cinv_newTermF (hL : FLaw L) {s : State Str} (h : CInv L s) (t : Str) (index : ℕ) :
    CInv L (newTermF L t index s).state := by
  unfold newTermF
  split
  · exact h
  · simp only
    split
    · split
      · exact h
      · exact h
    · split
      · rename_i hc
        split
        · exact h
        · rename_i c0 hc0
          split
          · exact h
          · rename_i hconf
            split
            · exact h
            · rename_i k hk
              have hlt := (List.getElem?_eq_some_iff.mp hc0).1
              have htk := pad_trim hk
              have h1 := cinv_setCas h hc0 (k := some k) (by
                intro c e
                subst e
                refine ⟨k, rfl, ?_⟩
                simp [conflicts] at hconf
                rw [htk, hconf])
              have hcas1 : (s.cas.set index (some k))[index]? = some (some k) := by
                rw [List.getElem?_set]; simp [hlt]
              obtain ⟨h2, h3⟩ := cinv_newTerm (t := trim k) h1 (fun _ => ⟨k, hcas1, by
                rw [san_trim hL hc hk, trim_idem, htk]⟩)
              cases hr : newTerm L (trim k) index { s with cas := s.cas.set index (some k) } with
              | err e s2 => rw [hr] at h2; exact h2
              | ok u s2 =>
                rw [hr] at h2 h3
                simp only [Out.bind]
                simp only [Out.state] at h2 h3
                exact cinv_finish h2 (fun _ => ⟨k, by rw [h3]; exact hcas1, htk⟩)
                  (fun _ => ⟨k, by rw [h3]; exact hcas1, rfl⟩)
      · rename_i hc
        exact cinv_finish h (fun h' => absurd h' hc) (fun h' => absurd h' hc)

theorem cinv_newItem {s : State Str} (h : CInv L s) : CInv L (newItem s).2 := by
  have hsplit : ∀ (i : ℕ) l, (s.items ++ [some []])[i]? = some (some l) →
      (s.items[i]? = some (some l)) ∨ (s.items.length ≤ i ∧ l = []) := by
    intro i l hi
    rw [List.getElem?_append] at hi
    split at hi
    · exact Or.inl hi
    · rename_i hge
      right
      have : i - s.items.length = 0 := by
        by_contra hne
        rw [List.getElem?_eq_none (by simp; omega)] at hi
        simp at hi
      rw [this] at hi
      simp at hi
      exact ⟨by omega, hi⟩
  have hcas : ∀ (i : ℕ) c, s.cas[i]? = some (some c) → (s.cas ++ [none])[i]? = some (some c) := by
    intro i c hi
    rw [List.getElem?_append_left (List.getElem?_eq_some_iff.mp hi).1]; exact hi
  refine ⟨by simp [newItem, h.lenC], ?_, ?_, h.two, ?_⟩
  · intro k i hk; have := h.lt k i hk; simp [newItem]; omega
  · intro k i l h1 h2 h3
    rcases hsplit i l h3 with h' | ⟨h', _⟩
    · obtain ⟨c, h4, h5⟩ := h.key k i l h1 h2 h'
      exact ⟨c, hcas i c h4, h5⟩
    · have := h.lt k i h1; omega
  · intro i l hi t ht hc
    rcases hsplit i l hi with h' | ⟨_, h'⟩
    · obtain ⟨c, h4, h5⟩ := h.list i l h' t ht hc
      exact ⟨c, hcas i c h4, h5⟩
    · subst h'; simp at ht

theorem cinv_mergeSet (hL : FLaw L) {s : State Str} (h : CInv L s) (ts : List Str) (index : ℕ) :
    CInv L (mergeSet (newTermF L) ts index s).state := by
  induction ts generalizing s with
  | nil => exact h
  | cons t ts ih =>
    unfold mergeSet
    have h1 := cinv_newTermF hL h t index
    cases hr : newTermF L t index s with
    | err e s2 => rw [hr] at h1; exact h1
    | ok u s2 => rw [hr] at h1; exact ih h1

theorem cinv_mergeSetF (hL : FLaw L) {s : State Str} (h : CInv L s) (ts : List Str) (index : ℕ) :
    CInv L (mergeSetF L ts index s).state := by
  unfold mergeSetF
  split
  · exact h
  · exact cinv_mergeSet hL h ts index
  · split
    · exact h
    · split
      · exact h
      · exact cinv_mergeSet hL h ts index

theorem bind_state {α β : Type} (r : Out (State Str) Err α) (f : α → β) :
    (r.bind fun a s => .ok (f a) s).state = r.state := by
  cases r <;> rfl

theorem cinv_newSet (hL : FLaw L) {s : State Str} (h : CInv L s) (it : List Str) :
    CInv L (newSet L (mergeSetF L) it s).state := by
  unfold newSet
  simp only
  split
  · exact h
  · rw [bind_state _ (fun _ => some (newItem s).1)]
    exact cinv_mergeSetF hL (cinv_newItem h) _ _

theorem cinv_addSet (hL : FLaw L) {s : State Str} (h : CInv L s) (o : PyOrd Str) (it : List Str) (m : Bool) :
    CInv L (addSet L o (mergeSetF L) it m s).state := by
  unfold addSet
  simp only
  split
  · exact cinv_newSet hL h _
  · exact cinv_newSet hL h _
  · rename_i index _
    rw [bind_state _ (fun _ => some index)]
    exact cinv_mergeSetF hL h _ _
  · exact h

theorem cinv_addTerm (hL : FLaw L) {s : State Str} (h : CInv L s) (t : Str) :
    CInv L (addTerm L (newTermF L) t s).state := by
  unfold addTerm
  split
  · exact h
  · simp only
    rw [bind_state _ (fun _ => (newItem s).1)]
    exact cinv_newTermF hL (cinv_newItem h) _ _

theorem cinv_setName {s : State Str} (h : CInv L s) (t : Str) : CInv L (setName L t s).state := by
  unfold setName
  split
  · exact h
  · exact cinv_names h _

theorem matchesF_known {t : Str} {s : State Str} {mts : List Str} (h : matchesF L t s = .ok mts) :
    ∀ k ∈ mts, L.san k = L.san t := by
  unfold matchesF at h
  split at h
  · simp at h
  · unfold matchesOf at h
    split at h
    · simp at h
    · split at h
      · rename_i l _
        simp only at h
        have : mts = l.filter (fun k => decide (L.san k = L.san t)) := by
          split at h
          · split at h
            · simp at h
            · simp only [Except.ok.injEq] at h; exact h.symm
          · simp only [Except.ok.injEq] at h; exact h.symm
        intro k hk
        rw [this, List.mem_filter] at hk
        simpa using hk.2
      · simp at h
      · simp at h

theorem cinv_splitTerm {s : State Str} (h : CInv L s) (o : PyOrd Str) (t : Str) :
    CInv L (splitTerm L o (matchesF L) (mergeSetF L) t s).state := by
  obtain ⟨items', names', h1, h2, h3⟩ := splitTerm_state (L := L) (ma := matchesF L) (ms := mergeSetF L)
    (s := s) (t := t) o (fun mts hm => matchesF_known hm)
  rw [h1]
  refine ⟨by simp [h.lenC, h2], by simpa [h2] using h.lt, ?_, h.two, ?_⟩
  · intro k i l e1 e2 e3
    obtain ⟨l0, e4, _⟩ := h3 i l e3
    exact h.key k i l0 e1 e2 e4
  · intro i l hi x hx hc
    obtain ⟨l0, e4, e5⟩ := h3 i l hi
    exact h.list i l0 e4 x (e5 x hx) hc

/-! ### merge -/

theorem cinv_mergeOne {s : State Str} {into m : ℕ} {cs : Option Str} (o : PyOrd Str)
    (h : CInv L { s with cas := s.cas.set into cs }) (hne : m ≠ into)
    {li lm : List Str} (hi : s.items[into]? = some (some li)) (hm : s.items[m]? = some (some lm))
    (hc : s.cas[m]? = some none ∨ s.cas[m]? = some cs) :
    ∃ s', mergeOne L o m into s = .ok () s' ∧ CInv L { s' with cas := s'.cas.set into cs } ∧
      (∃ l, s'.items[into]? = some (some l)) ∧ (∀ j : ℕ, j ≠ into → j ≠ m → s'.items[j]? = s.items[j]?) ∧
      s'.cas = s.cas.set m none := by
  have hlti := (List.getElem?_eq_some_iff.mp hi).1
  have hltm := (List.getElem?_eq_some_iff.mp hm).1
  have hlen : s.cas.length = s.items.length := by simpa using h.lenC
  unfold mergeOne
  rw [hi, hm]
  simp only
  have hinto : ∀ v, ((s.cas.set m none).set into v)[into]? = some v := by
    intro v; rw [List.getElem?_set]; simp [hlen, hlti]
  have hold : ∀ v, (s.cas.set into v)[into]? = some v := by
    intro v; rw [List.getElem?_set]; simp [hlen, hlti]
  -- CAS terms of either list carry the common CAS number
  have hU : ∀ t, t ∈ li ∨ t ∈ lm → isCas (L.san t) = true → ∃ c, cs = some c ∧ trim c = trim (L.san t) := by
    rintro t (ht | ht) hct
    · obtain ⟨c, e1, e2⟩ := h.list into li hi t ht hct
      simp only at e1
      rw [hold] at e1; simp at e1
      exact ⟨c, e1, e2⟩
    · obtain ⟨c, e1, e2⟩ := h.list m lm hm t ht hct
      simp only at e1
      rw [List.getElem?_set, if_neg (Ne.symm hne)] at e1
      rcases hc with hc | hc
      · rw [hc] at e1; simp at e1
      · rw [hc] at e1; simp at e1; exact ⟨c, e1, e2⟩
  have hgi : ((s.items.set into (some (PySet.union li lm))).set m none)[into]? =
      some (some (PySet.union li lm)) := by
    rw [List.getElem?_set, if_neg hne, List.getElem?_set]; simp [hlti]
  have hgo : ∀ j : ℕ, j ≠ into → j ≠ m →
      ((s.items.set into (some (PySet.union li lm))).set m none)[j]? = s.items[j]? := by
    intro j h1 h2
    rw [List.getElem?_set, if_neg (Ne.symm h2), List.getElem?_set, if_neg (Ne.symm h1)]
  have hgm : ((s.items.set into (some (PySet.union li lm))).set m none)[m]? = some none := by
    rw [List.getElem?_set]; simp [hltm]
  have hcaso : ∀ j : ℕ, j ≠ into → j ≠ m → ((s.cas.set m none).set into cs)[j]? = (s.cas.set into cs)[j]? := by
    intro j h1 h2
    rw [List.getElem?_set, if_neg (Ne.symm h1), List.getElem?_set, if_neg (Ne.symm h2),
      List.getElem?_set, if_neg (Ne.symm h1)]
  have hdict : ∀ k i, ((o.f (PySet.union li lm)).foldl (fun d t => d.set (L.san t) into) s.dict).get? k = some i →
      (i = into ∧ ∃ t, (t ∈ li ∨ t ∈ lm) ∧ L.san t = k) ∨ s.dict.get? k = some i := by
    intro k i hk
    rw [foldl_set_get] at hk
    split at hk
    · rename_i hmem
      rw [List.mem_map] at hmem
      obtain ⟨t, ht, e⟩ := hmem
      rw [o.mem, PySet.mem_union] at ht
      simp at hk
      exact Or.inl ⟨hk.symm, t, ht, e⟩
    · exact Or.inr hk
  have hkeyInto : ∀ k, ((o.f (PySet.union li lm)).foldl (fun d t => d.set (L.san t) into) s.dict).get? k = some into →
      isCas k = true → ∃ c, cs = some c ∧ trim c = trim k := by
    intro k hk hck
    rcases hdict k into hk with ⟨_, t, ht, e⟩ | hk
    · subst e; exact hU t ht hck
    · obtain ⟨c, e1, e2⟩ := h.key k into li hk hck hi
      simp only at e1
      rw [hold] at e1; simp at e1
      exact ⟨c, e1, e2⟩
  refine ⟨_, rfl, ⟨?_, ?_, ?_, ?_, ?_⟩, ⟨_, hgi⟩, hgo, rfl⟩
  · simp [hlen]
  · intro k i hk
    simp only [List.length_set]
    rcases hdict k i hk with ⟨e, _⟩ | hk
    · subst e; exact hlti
    · exact h.lt k i hk
  · intro k i l hk hck hl
    simp only at hk hl ⊢
    by_cases e1 : i = into
    · subst e1
      obtain ⟨c, e2, e3⟩ := hkeyInto k hk hck
      exact ⟨c, by rw [hinto, e2], e3⟩
    · by_cases e2 : i = m
      · subst e2; rw [hgm] at hl; simp at hl
      · rcases hdict k i hk with ⟨e, _⟩ | hk
        · exact absurd e e1
        · rw [hgo i e1 e2] at hl
          rw [hcaso i e1 e2]
          exact h.key k i l hk hck hl
  · intro k k' i hk hk' hck hck'
    simp only at hk hk'
    by_cases e1 : i = into
    · subst e1
      obtain ⟨c, e2, e3⟩ := hkeyInto k hk hck
      obtain ⟨c', e2', e3'⟩ := hkeyInto k' hk' hck'
      rw [e2] at e2'; simp at e2'; subst e2'
      exact e3.symm.trans e3'
    · rcases hdict k i hk with ⟨e, _⟩ | hk
      · exact absurd e e1
      · rcases hdict k' i hk' with ⟨e, _⟩ | hk'
        · exact absurd e e1
        · exact h.two k k' i hk hk' hck hck'
  · intro i l hl t ht hct
    simp only at hl ⊢
    by_cases e1 : i = into
    · subst e1
      rw [hgi] at hl; simp at hl; subst hl
      rw [PySet.mem_union] at ht
      obtain ⟨c, e2, e3⟩ := hU t ht hct
      exact ⟨c, by rw [hinto, e2], e3⟩
    · by_cases e2 : i = m
      · subst e2; rw [hgm] at hl; simp at hl
      · rw [hgo i e1 e2] at hl
        rw [hcaso i e1 e2]
        exact h.list i l hl t ht hct

theorem cinv_mergeAll {into : ℕ} {cs : Option Str} (o : PyOrd Str) (ixs : List ℕ) : ∀ {s : State Str}
    (_ : CInv L { s with cas := s.cas.set into cs }) (_ : ∃ li, s.items[into]? = some (some li))
    (_ : ixs.Nodup) (_ : into ∉ ixs) (_ : ∀ m ∈ ixs, ∃ lm, s.items[m]? = some (some lm))
    (_ : ∀ m ∈ ixs, s.cas[m]? = some none ∨ s.cas[m]? = some cs),
    ∃ s', mergeAll L o ixs into s = .ok () s' ∧ CInv L { s' with cas := s'.cas.set into cs } ∧
      s'.cas[into]? = s.cas[into]? := by
  induction ixs with
  | nil => intro s h _ _ _ _ _; exact ⟨s, rfl, h, rfl⟩
  | cons m ms ih =>
    intro s h ⟨li, hi⟩ hnd hni hlive hc
    obtain ⟨lm, hm⟩ := hlive m (by simp)
    have hne : m ≠ into := fun e => hni (by simp [e])
    have hnd' := List.nodup_cons.mp hnd
    obtain ⟨s1, h1, h2, h3, h4, h5⟩ := cinv_mergeOne o h hne hi hm (hc m (by simp))
    obtain ⟨s2, h6, h7, h8⟩ := ih h2 h3 hnd'.2 (fun e => hni (by simp [e])) (by
      intro j hj
      rw [h4 j (fun e => hni (by simp [← e, hj])) (fun e => hnd'.1 (e ▸ hj))]
      exact hlive j (by simp [hj])) (by
      intro j hj
      rw [h5, List.getElem?_set, if_neg (show m ≠ j from fun e => hnd'.1 (e ▸ hj))]
      exact hc j (by simp [hj]))
    refine ⟨s2, by unfold mergeAll; rw [h1]; exact h6, h7, ?_⟩
    rw [h8, h5, List.getElem?_set, if_neg hne]

/-- the merge goes through to the end: all arguments name live items other than the dominant one, or some
argument is unknown -/
def MergeSound (L : Lex Str) (s : State Str) (d : Str) (ts : List Str) : Prop :=
  (∀ t ∈ ts, getIndex L s t = none ∨ getIndex L s t ≠ getIndex L s d) ∧
  (∀ t, t = d ∨ t ∈ ts → ∀ i, getIndex L s t = some i → s.items[i]? ≠ some none)

theorem filterMap_single {A B : Type} {f : A → Option B} {l : List A} {c : B} (h : l.filterMap f = [c])
    {a : A} (ha : a ∈ l) : f a = none ∨ f a = some c := by
  cases hf : f a with
  | none => left; rfl
  | some b =>
    right
    have : b ∈ l.filterMap f := List.mem_filterMap.mpr ⟨a, ha, hf⟩
    rw [h] at this; simp at this; rw [this]

theorem cinv_mergeF {s : State Str} (h : CInv L s) (o : PyOrd Str) (oN : PyOrd ℕ) {d : Str} {ts : List Str}
    (hs : MergeSound L s d ts) : CInv L (mergeF L o oN d ts s).state := by
  unfold mergeF
  cases hd : getIndex L s d with
  | none => exact h
  | some dom =>
    cases hts : ts.mapM (getIndex L s) with
    | none => exact h
    | some ixs =>
      simp only
      have hlive : ∀ i ∈ dom :: ixs, ∃ l, s.items[i]? = some (some l) := by
        intro i hi
        have : ∃ t, (t = d ∨ t ∈ ts) ∧ getIndex L s t = some i := by
          rcases List.mem_cons.mp hi with e | hi
          · subst e; exact ⟨d, Or.inl rfl, hd⟩
          · obtain ⟨t, ht, e⟩ := (mapM_mem hts i).mp hi
            exact ⟨t, Or.inr ht, e⟩
        obtain ⟨t, ht, e⟩ := this
        have h1 := hs.2 t ht i e
        have h2 := h.lt _ _ e
        cases hx : s.items[i]? with
        | none => rw [List.getElem?_eq_none_iff] at hx; omega
        | some x =>
          cases x with
          | none => exact absurd hx h1
          | some l => exact ⟨l, rfl⟩
      have hcaslt : ∀ i ∈ dom :: ixs, ∃ x, s.cas[i]? = some x := by
        intro i hi
        obtain ⟨l, hl⟩ := hlive i hi
        have := (List.getElem?_eq_some_iff.mp hl).1
        exact ⟨_, List.getElem?_eq_getElem (by rw [h.lenC]; exact this)⟩
      -- one lemma for both outcomes
      have main : ∀ cs : Option Str, (∀ i ∈ dom :: ixs, s.cas[i]? = some none ∨ s.cas[i]? = some cs) →
          ∃ s', merge L o oN d ts s = .ok () s' ∧ CInv L { s' with cas := s'.cas.set dom cs } ∧
            s'.cas[dom]? = s.cas[dom]? := by
        intro cs hcs
        unfold merge
        rw [hd, hts]
        simp only
        have hmem : ∀ j, j ∈ oN.f (PySet.ofList ixs) ↔ j ∈ ixs := by
          intro j; rw [oN.mem, PySet.mem_ofList]
        obtain ⟨x, hx⟩ := hcaslt dom (by simp)
        refine cinv_mergeAll o _ (cinv_setCas h hx ?_) (hlive dom (by simp))
          ((oN.perm _).nodup_iff.mpr (PySet.nodup_ofList _)) ?_ ?_ ?_
        · intro c e
          subst e
          rcases hcs dom (by simp) with h' | h'
          · rw [hx] at h'; simp at h'
          · rw [hx] at h'; simp at h'; exact ⟨c, h'.symm, rfl⟩
        · rw [hmem, mapM_mem hts]
          rintro ⟨t, ht, e⟩
          rcases hs.1 t ht with h' | h'
          · rw [e] at h'; simp at h'
          · rw [e, hd] at h'; exact h' rfl
        · intro m hm; rw [hmem] at hm; exact hlive m (by simp [hm])
        · intro m hm; rw [hmem] at hm; exact hcs m (by simp [hm])
      split
      · rename_i hnil
        have hall : ∀ i ∈ dom :: ixs, s.cas[i]? = some none := by
          intro i hi
          obtain ⟨x, hx⟩ := hcaslt i hi
          rw [List.filterMap_eq_nil_iff] at hnil
          have := hnil i hi
          rw [hx] at this
          simp at this
          rw [hx, this]
        obtain ⟨s', h1, h2, h3⟩ := main none (fun i hi => Or.inl (hall i hi))
        rw [h1]
        simp only [Out.state]
        rw [hall dom (by simp)] at h3
        have : s'.cas.set dom none = s'.cas := by
          obtain ⟨hlt, e⟩ := List.getElem?_eq_some_iff.mp h3
          rw [← e, List.set_getElem_self]
        rw [this] at h2
        exact h2
      · rename_i c hc
        obtain ⟨s', h1, h2, h3⟩ := main (some c) (by
          intro i hi
          obtain ⟨x, hx⟩ := hcaslt i hi
          have := filterMap_single hc hi
          simp only [hx, Option.join_some] at this ⊢
          rcases this with e | e
          · left; rw [e]
          · right; rw [e])
        rw [h1]
        exact h2
      · exact h

end Flw
