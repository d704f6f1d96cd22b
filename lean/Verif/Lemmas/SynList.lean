import Mathlib.Tactic.Tauto
import Mathlib.Tactic.ByContra
import Verif.Model.SynList

/-! Invariant of SynList states and the effect of each method on it. -/

set_option linter.unusedSectionVars false
set_option linter.unusedSimpArgs false

namespace Syn
variable {T : Type} [DecidableEq T] {L : Lex T}

structure Inv (L : Lex T) (s : State T) : Prop where
  lenN : s.names.length = s.items.length
  listed : ∀ (i : ℕ) l, s.items[i]? = some (some l) → ∀ t ∈ l, s.dict.get? (L.san t) = some i
  live : ∀ k i, s.dict.get? k = some i → ∃ l, s.items[i]? = some (some l) ∧ ∃ t ∈ l, L.san t = k
  nodup : ∀ (i : ℕ) l, s.items[i]? = some (some l) → l.Nodup
  nonblank : ∀ (i : ℕ) l, s.items[i]? = some (some l) → L.blank ∉ l
  name : ∀ (i : ℕ) n, s.names[i]? = some (some n) → s.dict.get? (L.san n) = some i
  named : ∀ (i : ℕ) l, s.items[i]? = some (some l) → l ≠ [] → ∃ n, s.names[i]? = some (some n)

theorem inv_init : Inv L ({} : State T) := by
  constructor <;> simp

/-- what adding the terms `ts` to item `idx` (holding `l`) does -/
structure Eff (L : Lex T) (idx : ℕ) (l ts : List T) (s s' : State T) : Prop where
  items : ∃ l', s'.items = s.items.set idx (some l') ∧ ∀ x, x ∈ l' ↔ x ∈ l ∨ (x ∈ ts ∧ x ≠ L.blank)
  dictT : ∀ t ∈ ts, t ≠ L.blank → s'.dict.get? (L.san t) = some idx
  dictO : ∀ k, (∀ t ∈ ts, t ≠ L.blank → L.san t ≠ k) → s'.dict.get? k = s.dict.get? k
  namesO : ∀ j : ℕ, j ≠ idx → s'.names[j]? = s.names[j]?
  namesS : ∀ n, s.names[idx]? = some (some n) → s'.names[idx]? = some (some n)

theorem newTerm_ok {s : State T} (h : Inv L s) {idx : ℕ} {l : List T}
    (hl : s.items[idx]? = some (some l)) {t : T}
    (hk : s.dict.get? (L.san t) = none ∨ s.dict.get? (L.san t) = some idx) :
    ∃ s', newTerm L t idx s = .ok () s' ∧ Inv L s' ∧ Eff L idx l [t] s s' := by
  have hlt : idx < s.items.length := (List.getElem?_eq_some_iff.mp hl).1
  unfold newTerm
  by_cases hb : t = L.blank
  · refine ⟨s, by simp [hb], h, ⟨⟨l, ?_, ?_⟩, ?_, ?_, ?_, ?_⟩⟩
    · have := (List.getElem?_eq_some_iff.mp hl).2
      rw [← this, List.set_getElem_self]
    · intro x; simp only [List.mem_singleton]; constructor
      · exact Or.inl
      · rintro (h | ⟨h1, h2⟩)
        · exact h
        · exact absurd (h1.trans hb) h2
    · intro t' ht' hne; simp at ht'; exact absurd (ht'.trans hb) hne
    · simp
    · simp
    · simp
  · rw [if_neg hb, hl]
    simp only
    have hset : ∀ (i : ℕ) l', (s.items.set idx (some (PySet.add l t)))[i]? = some (some l') →
        (i = idx ∧ l' = PySet.add l t) ∨ (i ≠ idx ∧ s.items[i]? = some (some l')) := by
      intro i l' hi
      rw [List.getElem?_set] at hi
      split at hi
      · rename_i e
        left
        simp [hlt] at hi
        exact ⟨e.symm, hi.symm⟩
      · rename_i e
        exact Or.inr ⟨fun h => e h.symm, hi⟩
    have hidx : (s.items.set idx (some (PySet.add l t)))[idx]? = some (some (PySet.add l t)) := by
      rw [List.getElem?_set]; simp [hlt]
    rcases hk with hk | hk
    · -- new key
      rw [hk]
      simp only
      obtain ⟨names', hres, hn1, hn2, hn3⟩ : ∃ names' : List (Option T),
          (match s.names[idx]? with
            | some none => Out.ok (ε := Err) () { s with items := s.items.set idx (some (PySet.add l t)), dict := s.dict.set (L.san t) idx, names := s.names.set idx (some t) }
            | _ => .ok () { s with items := s.items.set idx (some (PySet.add l t)), dict := s.dict.set (L.san t) idx }) =
            .ok () { s with items := s.items.set idx (some (PySet.add l t)), dict := s.dict.set (L.san t) idx, names := names' } ∧
          names'.length = s.names.length ∧ (∀ j : ℕ, j ≠ idx → names'[j]? = s.names[j]?) ∧
          ((s.names[idx]? = some none → names'[idx]? = some (some t)) ∧
            (∀ n, s.names[idx]? = some (some n) → names'[idx]? = some (some n))) := by
        have hltn : idx < s.names.length := by rw [h.lenN]; exact hlt
        cases hname : s.names[idx]? with
        | none => rw [List.getElem?_eq_none_iff] at hname; omega
        | some o =>
          cases o with
          | none =>
            refine ⟨s.names.set idx (some t), rfl, by simp, ?_, ?_, by simp⟩
            · intro j hj; rw [List.getElem?_set]; simp [Ne.symm hj]
            · intro _; rw [List.getElem?_set]; simp [hltn]
          | some n => exact ⟨s.names, rfl, rfl, fun _ _ => rfl, by simp, by intro n' hn'; rw [hname]; exact hn'⟩
      have hget : ∀ k, (s.dict.set (L.san t) idx).get? k = if k = L.san t then some idx else s.dict.get? k := by
        intro k
        rw [Dict.get?_set]
        by_cases e : L.san t = k
        · simp [e]
        · simp [e, Ne.symm e]
      refine ⟨_, hres, ⟨?_, ?_, ?_, ?_, ?_, ?_, ?_⟩, ⟨⟨_, rfl, ?_⟩, ?_, ?_, hn2, hn3.2⟩⟩
      · simp [hn1, h.lenN]
      · intro i l' hi x hx
        simp only at hi ⊢
        rw [hget]
        rcases hset i l' hi with ⟨e1, e2⟩ | ⟨e1, e2⟩
        · subst e1 e2
          split
          · rfl
          · rename_i hne
            rw [PySet.mem_add] at hx
            rcases hx with hx | hx
            · exact h.listed _ _ hl x hx
            · subst hx; exact absurd rfl hne
        · have := h.listed _ _ e2 x hx
          split
          · rename_i e; rw [e, hk] at this; simp at this
          · exact this
      · intro k i hki
        simp only at hki ⊢
        rw [hget] at hki
        split at hki
        · rename_i e
          simp at hki; subst hki
          exact ⟨_, hidx, t, by simp, e.symm⟩
        · obtain ⟨l', h1, x, hx, hxk⟩ := h.live k i hki
          by_cases e : i = idx
          · subst e
            rw [hl] at h1; simp at h1; subst h1
            exact ⟨_, hidx, x, by simp [hx], hxk⟩
          · refine ⟨l', ?_, x, hx, hxk⟩
            rw [List.getElem?_set]; simp [Ne.symm e, h1]
      · intro i l' hi
        rcases hset i l' hi with ⟨e1, e2⟩ | ⟨e1, e2⟩
        · subst e2; exact PySet.nodup_add (h.nodup _ _ hl)
        · exact h.nodup _ _ e2
      · intro i l' hi
        rcases hset i l' hi with ⟨e1, e2⟩ | ⟨e1, e2⟩
        · subst e2; rw [PySet.mem_add]
          rintro (h' | h')
          · exact h.nonblank _ _ hl h'
          · exact hb h'.symm
        · exact h.nonblank _ _ e2
      · intro i n hi
        simp only at hi ⊢
        rw [hget]
        by_cases e : i = idx
        · subst e
          cases hname : s.names[i]? with
          | none =>
            have : i < s.names.length := by rw [h.lenN]; exact hlt
            rw [List.getElem?_eq_none_iff] at hname; omega
          | some o =>
            cases o with
            | none => rw [hn3.1 hname] at hi; simp at hi; subst hi; simp
            | some n' =>
              rw [hn3.2 n' hname] at hi; simp at hi; subst hi
              split
              · rfl
              · exact h.name _ _ hname
        · rw [hn2 i e] at hi
          have := h.name i n hi
          split
          · rename_i e'; rw [e', hk] at this; simp at this
          · exact this
      · intro i l' hi hne
        rcases hset i l' hi with ⟨e1, e2⟩ | ⟨e1, e2⟩
        · subst e1
          cases hname : s.names[i]? with
          | none =>
            have : i < s.names.length := by rw [h.lenN]; exact hlt
            rw [List.getElem?_eq_none_iff] at hname; omega
          | some o =>
            cases o with
            | none => exact ⟨t, hn3.1 hname⟩
            | some n' => exact ⟨n', hn3.2 n' hname⟩
        · obtain ⟨n, hn⟩ := h.named _ _ e2 hne
          exact ⟨n, by simp only; rw [hn2 i e1]; exact hn⟩
      · intro x; rw [PySet.mem_add]; simp only [List.mem_singleton]
        constructor
        · rintro (h' | h')
          · exact Or.inl h'
          · exact Or.inr ⟨h', h'.symm ▸ hb⟩
        · rintro (h' | ⟨h', _⟩)
          · exact Or.inl h'
          · exact Or.inr h'
      · intro t' ht' _; simp at ht'; subst ht'; rw [hget]; simp
      · intro k hk'; rw [hget]; rw [if_neg (fun e => hk' t (by simp) hb e.symm)]
    · -- key known with the same index
      rw [hk]
      simp only [if_true]
      refine ⟨_, rfl, ⟨?_, ?_, ?_, ?_, ?_, ?_, ?_⟩, ⟨⟨_, rfl, ?_⟩, ?_, ?_, fun _ _ => rfl, fun _ h => h⟩⟩
      · simp [h.lenN]
      · intro i l' hi x hx
        rcases hset i l' hi with ⟨e1, e2⟩ | ⟨e1, e2⟩
        · subst e1 e2
          rw [PySet.mem_add] at hx
          rcases hx with hx | hx
          · exact h.listed _ _ hl x hx
          · subst hx; exact hk
        · exact h.listed _ _ e2 x hx
      · intro k i hki
        obtain ⟨l', h1, x, hx, hxk⟩ := h.live k i hki
        by_cases e : i = idx
        · subst e
          rw [hl] at h1; simp at h1; subst h1
          exact ⟨_, hidx, x, by simp [hx], hxk⟩
        · refine ⟨l', ?_, x, hx, hxk⟩
          simp only
          rw [List.getElem?_set]; simp [Ne.symm e, h1]
      · intro i l' hi
        rcases hset i l' hi with ⟨e1, e2⟩ | ⟨e1, e2⟩
        · subst e2; exact PySet.nodup_add (h.nodup _ _ hl)
        · exact h.nodup _ _ e2
      · intro i l' hi
        rcases hset i l' hi with ⟨e1, e2⟩ | ⟨e1, e2⟩
        · subst e2; rw [PySet.mem_add]
          rintro (h' | h')
          · exact h.nonblank _ _ hl h'
          · exact hb h'.symm
        · exact h.nonblank _ _ e2
      · exact h.name
      · intro i l' hi hne
        rcases hset i l' hi with ⟨e1, e2⟩ | ⟨e1, e2⟩
        · subst e1
          obtain ⟨l0, h1, x, hx, _⟩ := h.live _ _ hk
          rw [hl] at h1; simp at h1; subst h1
          exact h.named _ _ hl (fun e => by rw [e] at hx; simp at hx)
        · exact h.named _ _ e2 hne
      · intro x; rw [PySet.mem_add]; simp only [List.mem_singleton]
        constructor
        · rintro (h' | h')
          · exact Or.inl h'
          · exact Or.inr ⟨h', h'.symm ▸ hb⟩
        · rintro (h' | ⟨h', _⟩)
          · exact Or.inl h'
          · exact Or.inr h'
      · intro t' ht' _; simp at ht'; subst ht'; exact hk
      · intro k _; rfl

theorem mergeSet_ok {s : State T} (h : Inv L s) {idx : ℕ} {l : List T}
    (hl : s.items[idx]? = some (some l)) {ts : List T}
    (hk : ∀ t ∈ ts, s.dict.get? (L.san t) = none ∨ s.dict.get? (L.san t) = some idx) :
    ∃ s', mergeSet (newTerm L) ts idx s = .ok () s' ∧ Inv L s' ∧ Eff L idx l ts s s' := by
  have hlt : idx < s.items.length := (List.getElem?_eq_some_iff.mp hl).1
  induction ts generalizing s l with
  | nil =>
    refine ⟨s, rfl, h, ⟨⟨l, ?_, by simp⟩, by simp, by simp, by simp, by simp⟩⟩
    have := (List.getElem?_eq_some_iff.mp hl).2
    rw [← this, List.set_getElem_self]
  | cons t ts ih =>
    obtain ⟨s1, h1, hI1, he1⟩ := newTerm_ok h hl (hk t (by simp))
    obtain ⟨l1, hl1, hm1⟩ := he1.items
    have hl1' : s1.items[idx]? = some (some l1) := by
      rw [hl1, List.getElem?_set]; simp [hlt]
    obtain ⟨s2, h2, hI2, he2⟩ := ih hI1 hl1' (by
      intro x hx
      by_cases hbt : t ≠ L.blank ∧ L.san t = L.san x
      · right; rw [← hbt.2]; exact he1.dictT t (by simp) hbt.1
      · rw [he1.dictO (L.san x) (by
          intro t' ht' hne e
          simp at ht'; subst ht'
          exact hbt ⟨hne, e⟩)]
        exact hk x (by simp [hx])) (by rw [hl1]; simpa using hlt)
    refine ⟨s2, by unfold mergeSet; rw [h1]; exact h2, hI2, ?_⟩
    obtain ⟨l2, hl2, hm2⟩ := he2.items
    refine ⟨⟨l2, by rw [hl2, hl1, List.set_set], ?_⟩, ?_, ?_, ?_, ?_⟩
    · intro x; rw [hm2, hm1]; simp only [List.mem_singleton, List.mem_cons]; tauto
    · intro x hx hne
      by_cases hx2 : ∃ y ∈ ts, y ≠ L.blank ∧ L.san y = L.san x
      · obtain ⟨y, hy, hyb, hyx⟩ := hx2
        rw [← hyx]; exact he2.dictT y hy hyb
      · rw [he2.dictO (L.san x) (fun y hy hyb e => hx2 ⟨y, hy, hyb, e⟩)]
        rcases List.mem_cons.mp hx with e | hx
        · subst e; exact he1.dictT x (by simp) hne
        · exact absurd ⟨x, hx, hne, rfl⟩ hx2
    · intro k hk'
      rw [he2.dictO k (fun y hy => hk' y (by simp [hy])), he1.dictO k (by
        intro y hy; simp at hy; subst hy; exact hk' y (by simp))]
    · intro j hj; rw [he2.namesO j hj, he1.namesO j hj]
    · intro n hn; exact he2.namesS n (he1.namesS n hn)

theorem newItem_inv {s : State T} (h : Inv L s) : Inv L (newItem s).2 := by
  have hsplit : ∀ (i : ℕ) l, (s.items ++ [some []])[i]? = some (some l) →
      (s.items[i]? = some (some l)) ∨ (i = s.items.length ∧ l = []) := by
    intro i l hi
    rw [List.getElem?_append] at hi
    split at hi
    · exact Or.inl hi
    · rename_i hge
      right
      have : i - s.items.length = 0 := by
        by_contra hne
        have : 0 < i - s.items.length := by omega
        rw [List.getElem?_eq_none (by simp; omega)] at hi
        simp at hi
      rw [this] at hi
      simp at hi
      exact ⟨by omega, hi⟩
  have hnsplit : ∀ (i : ℕ) n, (s.names ++ [none])[i]? = some (some n) → s.names[i]? = some (some n) := by
    intro i n hi
    rw [List.getElem?_append] at hi
    split at hi
    · exact hi
    · have : i - s.names.length = 0 := by
        by_contra hne
        rw [List.getElem?_eq_none (by simp; omega)] at hi
        simp at hi
      rw [this] at hi; simp at hi
  constructor
  · simp [newItem, h.lenN]
  · intro i l hi t ht
    rcases hsplit i l hi with h' | ⟨_, h'⟩
    · exact h.listed i l h' t ht
    · subst h'; simp at ht
  · intro k i hki
    obtain ⟨l, h1, h2⟩ := h.live k i hki
    refine ⟨l, ?_, h2⟩
    simp only [newItem]
    rw [List.getElem?_append_left (List.getElem?_eq_some_iff.mp h1).1]
    exact h1
  · intro i l hi
    rcases hsplit i l hi with h' | ⟨_, h'⟩
    · exact h.nodup i l h'
    · subst h'; simp
  · intro i l hi
    rcases hsplit i l hi with h' | ⟨_, h'⟩
    · exact h.nonblank i l h'
    · subst h'; simp
  · intro i n hi; exact h.name i n (hnsplit i n hi)
  · intro i l hi hne
    rcases hsplit i l hi with h' | ⟨_, h'⟩
    · obtain ⟨n, hn⟩ := h.named i l h' hne
      refine ⟨n, ?_⟩
      simp only [newItem]
      rw [List.getElem?_append_left (List.getElem?_eq_some_iff.mp hn).1]
      exact hn
    · exact absurd h' hne

theorem newItem_get (s : State T) : (newItem s).2.items[(newItem s).1]? = some (some []) := by
  simp [newItem]

/-- filling a new item with terms not known before -/
theorem newItem_fill {s : State T} (h : Inv L s) {ts : List T}
    (hk : ∀ t ∈ ts, s.dict.get? (L.san t) = none) :
    ∃ s', mergeSet (newTerm L) ts s.items.length (newItem s).2 = .ok () s' ∧ Inv L s' ∧
      (∃ l', s'.items = s.items ++ [some l'] ∧ ∀ x, x ∈ l' ↔ x ∈ ts ∧ x ≠ L.blank) ∧
      (∀ t ∈ ts, t ≠ L.blank → s'.dict.get? (L.san t) = some s.items.length) ∧
      (∀ k, (∀ t ∈ ts, t ≠ L.blank → L.san t ≠ k) → s'.dict.get? k = s.dict.get? k) ∧
      (∀ j : ℕ, j < s.items.length → s'.names[j]? = s.names[j]?) := by
  obtain ⟨s', h1, h2, he⟩ := mergeSet_ok (newItem_inv h) (idx := s.items.length) (newItem_get s)
    (ts := ts) (fun t ht => Or.inl (hk t ht))
  obtain ⟨l', hl', hm⟩ := he.items
  refine ⟨s', h1, h2, ⟨l', ?_, by simpa using hm⟩, he.dictT, he.dictO, ?_⟩
  · rw [hl']; simp [newItem]
  · intro j hj
    rw [he.namesO j (by omega)]
    simp only [newItem]
    rw [List.getElem?_append_left (by rw [h.lenN]; exact hj)]

theorem newSet_ok {s : State T} (h : Inv L s) (it : List T) :
    ∃ r s', newSet L (mergeSet (newTerm L)) it s = .ok r s' ∧ Inv L s' := by
  unfold newSet
  simp only
  split
  · exact ⟨_, _, rfl, h⟩
  · obtain ⟨s', h1, h2, _⟩ := newItem_fill h (ts := it.filter fun t => (getIndex L s t).isNone) (by
      intro t ht
      rw [List.mem_filter] at ht
      simpa [getIndex] using ht.2)
    have : (newItem s).1 = s.items.length := rfl
    rw [this, h1]
    exact ⟨_, _, rfl, h2⟩

theorem addSet_ok {s : State T} (h : Inv L s) (o : PyOrd T) (it : List T) (m : Bool) :
    (∃ r s', addSet L o (mergeSet (newTerm L)) it m s = .ok r s' ∧ Inv L s') ∨
      (addSet L o (mergeSet (newTerm L)) it m s = .err .inconsistent s) := by
  unfold addSet
  simp only
  generalize hf : PySet.ofList (it.filterMap (getIndex L s)) = found
  split
  · left; exact newSet_ok h _
  · left; exact newSet_ok h _
  · rename_i index
    left
    have hmem : index ∈ it.filterMap (getIndex L s) := by
      rw [← PySet.mem_ofList, hf]; simp
    rw [List.mem_filterMap] at hmem
    obtain ⟨x, _, hx⟩ := hmem
    obtain ⟨l, hl, _⟩ := h.live _ _ hx
    obtain ⟨s', h1, h2, _⟩ := mergeSet_ok h hl
      (ts := o.f (PySet.ofList (it.filter fun t => (getIndex L s t).isNone))) (by
        intro t ht
        rw [o.mem, PySet.mem_ofList, List.mem_filter] at ht
        left; simpa [getIndex] using ht.2)
    rw [h1]
    exact ⟨_, _, rfl, h2⟩
  · right; rfl

theorem addTerm_ok {s : State T} (h : Inv L s) (t : T) :
    ∃ r s', addTerm L (newTerm L) t s = .ok r s' ∧ Inv L s' := by
  unfold addTerm
  split
  · exact ⟨_, _, rfl, h⟩
  · rename_i hn
    obtain ⟨s', h1, h2, _⟩ := newTerm_ok (newItem_inv h) (newItem_get s) (t := t)
      (Or.inl (show s.dict.get? (L.san t) = none from hn))
    simp only
    rw [h1]
    exact ⟨_, _, rfl, h2⟩

theorem setName_ok {s : State T} (h : Inv L s) (t : T) :
    (∃ i, setName L t s = .ok i { s with names := s.names.set i (some t) } ∧
      s.dict.get? (L.san t) = some i ∧ Inv L { s with names := s.names.set i (some t) }) ∨
    setName L t s = .err .keyError s := by
  unfold setName
  cases hg : getIndex L s t with
  | none => right; rfl
  | some i =>
    left
    refine ⟨i, rfl, hg, ⟨by simp [h.lenN], h.listed, h.live, h.nodup, h.nonblank, ?_, ?_⟩⟩
    · intro j n hj
      simp only at hj
      rw [List.getElem?_set] at hj
      split at hj
      · rename_i e
        subst e
        split at hj
        · simp at hj; subst hj; exact hg
        · simp at hj
      · exact h.name j n hj
    · intro j l hj hne
      simp only
      by_cases e : i = j
      · subst e
        refine ⟨t, ?_⟩
        rw [List.getElem?_set]
        have : i < s.names.length := by rw [h.lenN]; exact (List.getElem?_eq_some_iff.mp hj).1
        simp [this]
      · obtain ⟨n, hn⟩ := h.named j l hj hne
        exact ⟨n, by rw [List.getElem?_set]; simp [e, hn]⟩

theorem foldl_set_get {K : Type} (f : K → T) (v : ℕ) (l : List K) (d : Dict T ℕ) (k : T) :
    (l.foldl (fun d t => d.set (f t) v) d).get? k = if k ∈ l.map f then some v else d.get? k := by
  induction l generalizing d with
  | nil => simp
  | cons a l ih =>
    rw [List.foldl_cons, ih]
    by_cases h1 : k ∈ l.map f
    · rw [if_pos h1, if_pos (by rw [List.map_cons]; simp only [List.mem_cons]; exact Or.inr h1)]
    · rw [if_neg h1, Dict.get?_set]
      by_cases h2 : f a = k
      · simp [h2]
      · rw [if_neg h2]
        simp only [List.map_cons, List.mem_cons]
        rw [if_neg (by rintro (h' | h'); exact h2 h'.symm; exact h1 h')]

theorem mergeOne_ok {s : State T} (h : Inv L s) (o : PyOrd T) {m into : ℕ} (hne : m ≠ into)
    {li lm : List T} (hi : s.items[into]? = some (some li)) (hli : li ≠ []) (hm : s.items[m]? = some (some lm)) :
    ∃ s', mergeOne L o m into s = .ok () s' ∧ Inv L s' ∧
      (∃ l, s'.items = (s.items.set into (some l)).set m none ∧ ∀ x, x ∈ l ↔ x ∈ li ∨ x ∈ lm) ∧
      (∀ k, s'.dict.get? k = if s.dict.get? k = some m then some into else s.dict.get? k) ∧
      s'.names = s.names.set m none := by
  have hlti := (List.getElem?_eq_some_iff.mp hi).1
  have hltm := (List.getElem?_eq_some_iff.mp hm).1
  unfold mergeOne
  rw [hi, hm]
  simp only
  have hd : ∀ k, ((o.f (PySet.union li lm)).foldl (fun d t => d.set (L.san t) into) s.dict).get? k =
      if s.dict.get? k = some m then some into else s.dict.get? k := by
    intro k
    rw [foldl_set_get]
    have hmem : k ∈ (o.f (PySet.union li lm)).map L.san ↔
        s.dict.get? k = some into ∨ s.dict.get? k = some m := by
      rw [List.mem_map]
      constructor
      · rintro ⟨t, ht, rfl⟩
        rw [o.mem, PySet.mem_union] at ht
        rcases ht with ht | ht
        · exact Or.inl (h.listed _ _ hi t ht)
        · exact Or.inr (h.listed _ _ hm t ht)
      · rintro (hk | hk)
        · obtain ⟨l, h1, t, ht, e⟩ := h.live _ _ hk
          rw [hi] at h1; simp at h1; subst h1
          exact ⟨t, by rw [o.mem]; simp [ht], e⟩
        · obtain ⟨l, h1, t, ht, e⟩ := h.live _ _ hk
          rw [hm] at h1; simp at h1; subst h1
          exact ⟨t, by rw [o.mem]; simp [ht], e⟩
    by_cases h1 : s.dict.get? k = some m
    · rw [if_pos (hmem.mpr (Or.inr h1)), if_pos h1]
    · rw [if_neg h1]
      by_cases h2 : s.dict.get? k = some into
      · rw [if_pos (hmem.mpr (Or.inl h2)), h2]
      · rw [if_neg (fun e => (hmem.mp e).elim h2 h1)]
  have hsplit : ∀ (j : ℕ) l', ((s.items.set into (some (PySet.union li lm))).set m none)[j]? = some (some l') →
      (j = into ∧ l' = PySet.union li lm) ∨ (j ≠ into ∧ j ≠ m ∧ s.items[j]? = some (some l')) := by
    intro j l' hj
    rw [List.getElem?_set] at hj
    split at hj
    · split at hj <;> simp at hj
    · rename_i e1
      rw [List.getElem?_set] at hj
      split at hj
      · rename_i e2
        simp [hlti] at hj; exact Or.inl ⟨e2.symm, hj.symm⟩
      · rename_i e2; exact Or.inr ⟨Ne.symm e2, Ne.symm e1, hj⟩
  have hgi : ((s.items.set into (some (PySet.union li lm))).set m none)[into]? =
      some (some (PySet.union li lm)) := by
    rw [List.getElem?_set, if_neg hne, List.getElem?_set]; simp [hlti]
  have hgo : ∀ j : ℕ, j ≠ into → j ≠ m →
      ((s.items.set into (some (PySet.union li lm))).set m none)[j]? = s.items[j]? := by
    intro j h1 h2
    rw [List.getElem?_set, if_neg (Ne.symm h2), List.getElem?_set, if_neg (Ne.symm h1)]
  refine ⟨_, rfl, ⟨?_, ?_, ?_, ?_, ?_, ?_, ?_⟩, ⟨_, rfl, fun x => PySet.mem_union⟩, hd, rfl⟩
  · simp [h.lenN]
  · intro j l' hj t ht
    simp only
    rw [hd]
    rcases hsplit j l' hj with ⟨e1, e2⟩ | ⟨e1, e2, e3⟩
    · subst e1 e2
      rw [PySet.mem_union] at ht
      rcases ht with ht | ht
      · rw [h.listed _ _ hi t ht]; simp [Ne.symm hne]
      · rw [h.listed _ _ hm t ht]; simp
    · rw [h.listed _ _ e3 t ht]; simp [e2]
  · intro k j hk
    simp only at hk ⊢
    rw [hd] at hk
    split at hk
    · rename_i e
      simp at hk; subst hk
      obtain ⟨l, h1, t, ht, hte⟩ := h.live _ _ e
      rw [hm] at h1; simp at h1; subst h1
      exact ⟨_, hgi, t, by simp [ht], hte⟩
    · rename_i e
      obtain ⟨l, h1, t, ht, hte⟩ := h.live _ _ hk
      by_cases e2 : j = into
      · subst e2
        rw [hi] at h1; simp at h1; subst h1
        exact ⟨_, hgi, t, by simp [ht], hte⟩
      · by_cases e3 : j = m
        · subst e3; exact absurd hk e
        · exact ⟨l, by rw [hgo j e2 e3]; exact h1, t, ht, hte⟩
  · intro j l' hj
    rcases hsplit j l' hj with ⟨e1, e2⟩ | ⟨e1, e2, e3⟩
    · subst e2; exact PySet.nodup_union (h.nodup _ _ hi)
    · exact h.nodup _ _ e3
  · intro j l' hj
    rcases hsplit j l' hj with ⟨e1, e2⟩ | ⟨e1, e2, e3⟩
    · subst e2; rw [PySet.mem_union]
      rintro (h' | h')
      · exact h.nonblank _ _ hi h'
      · exact h.nonblank _ _ hm h'
    · exact h.nonblank _ _ e3
  · intro j n hj
    simp only at hj ⊢
    rw [List.getElem?_set] at hj
    split at hj
    · split at hj <;> simp at hj
    · rename_i e
      rw [hd, h.name j n hj]
      simp [Ne.symm e]
  · intro j l' hj hne'
    simp only
    rcases hsplit j l' hj with ⟨e1, e2⟩ | ⟨e1, e2, e3⟩
    · subst e1
      obtain ⟨n, hn⟩ := h.named _ _ hi hli
      exact ⟨n, by rw [List.getElem?_set, if_neg hne]; exact hn⟩
    · obtain ⟨n, hn⟩ := h.named _ _ e3 hne'
      exact ⟨n, by rw [List.getElem?_set, if_neg (Ne.symm e2)]; exact hn⟩

theorem mergeAll_ok (o : PyOrd T) {into : ℕ} (ixs : List ℕ) : ∀ {s : State T} (_ : Inv L s) {li : List T}
    (_ : s.items[into]? = some (some li)) (_ : li ≠ []) (_ : ixs.Nodup) (_ : into ∉ ixs)
    (_ : ∀ m ∈ ixs, ∃ lm, s.items[m]? = some (some lm)),
    ∃ s', mergeAll L o ixs into s = .ok () s' ∧ Inv L s' ∧
      (∃ l, s'.items[into]? = some (some l) ∧
        ∀ x, x ∈ l ↔ x ∈ li ∨ ∃ m ∈ ixs, ∃ lm, s.items[m]? = some (some lm) ∧ x ∈ lm) ∧
      (∀ k, s'.dict.get? k = if (∃ m ∈ ixs, s.dict.get? k = some m) then some into else s.dict.get? k) ∧
      (∀ j : ℕ, j ≠ into → j ∉ ixs → s'.items[j]? = s.items[j]?) ∧
      (∀ j ∈ ixs, s'.items[j]? = some none) ∧
      (∀ j : ℕ, j ∉ ixs → s'.names[j]? = s.names[j]?) := by
  induction ixs with
  | nil =>
    intro s h li hi hli _ _ _
    refine ⟨s, rfl, h, ⟨li, hi, by simp⟩, by simp, by simp, by simp, by simp⟩
  | cons m ms ih =>
    intro s h li hi hli hnd hni hlive
    obtain ⟨lm, hm⟩ := hlive m (by simp)
    have hne : m ≠ into := fun e => hni (by simp [e])
    have hnd' := List.nodup_cons.mp hnd
    obtain ⟨s1, h1, hI1, ⟨l1, hit1, hl1⟩, hd1, hn1⟩ := mergeOne_ok h o hne hi hli hm
    have hlti := (List.getElem?_eq_some_iff.mp hi).1
    have hltm := (List.getElem?_eq_some_iff.mp hm).1
    have hi1 : s1.items[into]? = some (some l1) := by
      rw [hit1, List.getElem?_set, if_neg hne, List.getElem?_set]; simp [hlti]
    have ho1 : ∀ j : ℕ, j ≠ into → j ≠ m → s1.items[j]? = s.items[j]? := by
      intro j e1 e2
      rw [hit1, List.getElem?_set, if_neg (Ne.symm e2), List.getElem?_set, if_neg (Ne.symm e1)]
    have hm1 : s1.items[m]? = some none := by
      rw [hit1, List.getElem?_set]; simp [hltm]
    have hsub : ∀ j ∈ ms, j ≠ into ∧ j ≠ m := by
      intro j hj
      exact ⟨fun e => hni (by simp [← e, hj]), fun e => hnd'.1 (e ▸ hj)⟩
    obtain ⟨s2, h2, hI2, ⟨l2, hi2, hl2⟩, hd2, ho2, hz2, hn2⟩ := ih hI1 hi1 (by
        obtain ⟨x, hx⟩ := List.exists_mem_of_ne_nil li hli
        intro e
        have := (hl1 x).mpr (Or.inl hx)
        rw [e] at this; simp at this) hnd'.2 (fun e => hni (by simp [e])) (by
        intro j hj
        rw [ho1 j (hsub j hj).1 (hsub j hj).2]
        exact hlive j (by simp [hj]))
    refine ⟨s2, by unfold mergeAll; rw [h1]; exact h2, hI2, ⟨l2, hi2, ?_⟩, ?_, ?_, ?_, ?_⟩
    · intro x
      rw [hl2, hl1]
      constructor
      · rintro ((hx | hx) | ⟨j, hj, lj, hlj, hx⟩)
        · exact Or.inl hx
        · exact Or.inr ⟨m, by simp, lm, hm, hx⟩
        · rw [ho1 j (hsub j hj).1 (hsub j hj).2] at hlj
          exact Or.inr ⟨j, by simp [hj], lj, hlj, hx⟩
      · rintro (hx | ⟨j, hj, lj, hlj, hx⟩)
        · exact Or.inl (Or.inl hx)
        · rcases List.mem_cons.mp hj with e | hj
          · subst e; rw [hm] at hlj; simp at hlj; subst hlj; exact Or.inl (Or.inr hx)
          · refine Or.inr ⟨j, hj, lj, ?_, hx⟩
            rw [ho1 j (hsub j hj).1 (hsub j hj).2]; exact hlj
    · intro k
      rw [hd2, hd1]
      by_cases e : s.dict.get? k = some m
      · rw [if_pos e, if_pos (⟨m, by simp, e⟩ : ∃ m' ∈ m :: ms, s.dict.get? k = some m')]
        simp
      · rw [if_neg e]
        by_cases e2 : ∃ j ∈ ms, s.dict.get? k = some j
        · obtain ⟨j, hj, hjk⟩ := e2
          rw [if_pos (⟨j, hj, hjk⟩ : ∃ m ∈ ms, s.dict.get? k = some m),
            if_pos (⟨j, by simp [hj], hjk⟩ : ∃ m' ∈ m :: ms, s.dict.get? k = some m')]
        · rw [if_neg e2, if_neg]
          rintro ⟨j, hj, hjk⟩
          rcases List.mem_cons.mp hj with e' | hj
          · subst e'; exact e hjk
          · exact e2 ⟨j, hj, hjk⟩
    · intro j e1 e2
      rw [ho2 j e1 (fun h => e2 (by simp [h])), ho1 j e1 (fun h => e2 (by simp [h]))]
    · intro j hj
      rcases List.mem_cons.mp hj with e | hj
      · subst e
        rw [ho2 j hne (fun h => hnd'.1 h)]; exact hm1
      · exact hz2 j hj
    · intro j hj
      rw [hn2 j (fun h => hj (by simp [h])), hn1, List.getElem?_set,
        if_neg (fun e => hj (by simp [e]))]

theorem mapM_mem {A B : Type} {f : A → Option B} {l : List A} {r : List B} (h : l.mapM f = some r) (b : B) :
    b ∈ r ↔ ∃ a ∈ l, f a = some b := by
  induction l generalizing r with
  | nil =>
    simp only [List.mapM_nil] at h
    cases h
    simp
  | cons a l ih =>
    rw [List.mapM_cons] at h
    cases ha : f a with
    | none => rw [ha] at h; simp at h
    | some x =>
      cases hl : l.mapM f with
      | none => rw [ha, hl] at h; simp at h
      | some y =>
        rw [ha, hl] at h
        have h : x :: y = r := by simpa using h
        subst h
        simp only [List.mem_cons, ih hl]
        constructor
        · rintro (e | ⟨c, hc, hcb⟩)
          · exact ⟨a, Or.inl rfl, by rw [ha, e]⟩
          · exact ⟨c, Or.inr hc, hcb⟩
        · rintro ⟨c, rfl | hc, hcb⟩
          · rw [ha] at hcb; left; simpa using hcb.symm
          · exact Or.inr ⟨c, hc, hcb⟩

/-- merging items other than the dominant one -/
theorem merge_ok {s : State T} (h : Inv L s) (o : PyOrd T) (oN : PyOrd ℕ) {d : T} {ts : List T} {into : ℕ}
    (hd : getIndex L s d = some into) (hts : ∀ t ∈ ts, ∃ i, getIndex L s t = some i)
    (hne : ∀ t ∈ ts, getIndex L s t ≠ some into) :
    ∃ s', merge L o oN d ts s = .ok () s' ∧ Inv L s' ∧
      (∃ l, s'.items[into]? = some (some l) ∧
        ∀ x, x ∈ l ↔ (∃ i lx, (i = into ∨ ∃ t ∈ ts, getIndex L s t = some i) ∧
          s.items[i]? = some (some lx) ∧ x ∈ lx)) ∧
      (∀ x, getIndex L s' x = if (∃ t ∈ ts, getIndex L s x = getIndex L s t) then some into else getIndex L s x) ∧
      (∀ j : ℕ, j ≠ into → (∀ t ∈ ts, getIndex L s t ≠ some j) → s'.items[j]? = s.items[j]?) ∧
      (∀ j : ℕ, (∀ t ∈ ts, getIndex L s t ≠ some j) → s'.names[j]? = s.names[j]?) := by
  unfold merge
  rw [hd]
  obtain ⟨ixs, hix⟩ : ∃ ixs, ts.mapM (getIndex L s) = some ixs := by
    clear hne
    induction ts with
    | nil => exact ⟨[], rfl⟩
    | cons t ts ih =>
      obtain ⟨i, hi⟩ := hts t (by simp)
      obtain ⟨r, hr⟩ := ih (fun x hx => hts x (by simp [hx]))
      exact ⟨i :: r, by rw [List.mapM_cons, hi, hr]; rfl⟩
  rw [hix]
  simp only
  have hmem : ∀ j, j ∈ oN.f (PySet.ofList ixs) ↔ ∃ t ∈ ts, getIndex L s t = some j := by
    intro j; rw [oN.mem, PySet.mem_ofList, mapM_mem hix]
  obtain ⟨li, hli, x, hx, _⟩ := h.live _ _ hd
  obtain ⟨s', h1, h2, ⟨l, hl, hlm⟩, h4, h5, h6, h7⟩ := mergeAll_ok o (oN.f (PySet.ofList ixs)) h hli
    (fun e => by rw [e] at hx; simp at hx)
    ((oN.perm _).nodup_iff.mpr (PySet.nodup_ofList _))
    (by rw [hmem]; rintro ⟨t, ht, e⟩; exact hne t ht e)
    (by
      intro m hm
      rw [hmem] at hm
      obtain ⟨t, _, e⟩ := hm
      obtain ⟨lm, hlm, _⟩ := h.live _ _ e
      exact ⟨lm, hlm⟩)
  refine ⟨s', h1, h2, ⟨l, hl, ?_⟩, ?_, ?_, ?_⟩
  · intro y
    rw [hlm]
    constructor
    · rintro (hy | ⟨m, hm, lm, hlm, hy⟩)
      · exact ⟨into, li, Or.inl rfl, hli, hy⟩
      · exact ⟨m, lm, Or.inr ((hmem m).mp hm), hlm, hy⟩
    · rintro ⟨i, lx, e | e, hlx, hy⟩
      · subst e; rw [hli] at hlx; simp at hlx; subst hlx; exact Or.inl hy
      · exact Or.inr ⟨i, (hmem i).mpr e, lx, hlx, hy⟩
  · intro y
    unfold getIndex
    rw [h4]
    congr 1
    apply propext
    constructor
    · rintro ⟨m, hm, e⟩
      obtain ⟨t, ht, e'⟩ := (hmem m).mp hm
      exact ⟨t, ht, e.trans e'.symm⟩
    · rintro ⟨t, ht, e⟩
      obtain ⟨i, hi⟩ := hts t ht
      exact ⟨i, (hmem i).mpr ⟨t, ht, hi⟩, e.trans hi⟩
  · intro j e1 e2
    exact h5 j e1 (by rw [hmem]; rintro ⟨t, ht, e⟩; exact e2 t ht e)
  · intro j e2
    exact h7 j (by rw [hmem]; rintro ⟨t, ht, e⟩; exact e2 t ht e)

/-- what `split_term` does to the state, whatever `_merge_set_with_index` is -/
theorem splitTerm_state {ma : T → State T → Except Err (List T)}
    {ms : List T → ℕ → State T → Out (State T) Err Unit} {s : State T} {t : T} (o : PyOrd T)
    (hma : ∀ mts, ma t s = .ok mts → ∀ k ∈ mts, L.san k = L.san t) :
    ∃ items' names', (splitTerm L o ma ms t s).state = { s with items := items', names := names' } ∧
      items'.length = s.items.length ∧
      ∀ (i : ℕ) l, items'[i]? = some (some l) → ∃ l0, s.items[i]? = some (some l0) ∧ ∀ x ∈ l, x ∈ l0 := by
  unfold splitTerm
  cases hm : ma t s with
  | error e => exact ⟨s.items, s.names, rfl, rfl, fun i l h => ⟨l, h, fun _ h => h⟩⟩
  | ok mts =>
    simp only
    cases hg : getIndex L s t with
    | none => exact ⟨s.items, s.names, rfl, rfl, fun i l h => ⟨l, h, fun _ h => h⟩⟩
    | some old =>
      simp only
      have hmod : ∀ (i : ℕ) l, (s.items.modify old fun x => x.map fun l => l.filter fun k => decide (k ∉ mts))[i]? = some (some l) →
          ∃ l0, s.items[i]? = some (some l0) ∧ ∀ x ∈ l, x ∈ l0 := by
        intro i l hi
        rw [List.getElem?_modify] at hi
        cases hs : s.items[i]? with
        | none => rw [hs] at hi; simp at hi
        | some x =>
          rw [hs] at hi
          cases x with
          | none => split at hi <;> simp at hi
          | some l0 =>
            refine ⟨l0, rfl, ?_⟩
            split at hi
            · simp at hi; subst hi
              intro x hx; exact (List.mem_filter.mp hx).1
            · simp at hi; subst hi; intro x hx; exact hx
      have hlen : (s.items.modify old fun x => x.map fun l => l.filter fun k => decide (k ∉ mts)).length = s.items.length := by simp
      revert hmod hlen
      generalize (s.items.modify old fun x => x.map fun l => l.filter fun k => decide (k ∉ mts)) = items'
      intro hmod hlen
      have hget : ∀ k, getIndex L { s with items := items' } k = getIndex L s k := fun _ => rfl
      have hns : newSet L ms (o.f mts) { s with items := items' } = .ok none { s with items := items' } := by
        unfold newSet
        have : (o.f mts).filter (fun k => (getIndex L { s with items := items' } k).isNone) = [] := by
          rw [List.filter_eq_nil_iff]
          intro k hk
          rw [o.mem] at hk
          have : getIndex L { s with items := items' } k = some old := by
            unfold getIndex
            simp only
            rw [hma mts hm k hk]; exact hg
          rw [this]; simp
        simp only [this, if_true]
      rw [hns]
      simp only [Out.bind, setName, hget, hg]
      exact ⟨items', _, rfl, hlen, hmod⟩

end Syn
