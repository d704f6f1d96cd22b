import Mathlib.Tactic.Tauto
import Verif.Spec.NewFlowable
import Verif.Model.NewFlowable
import Verif.Props.Flowables

/-!
Lemmas for C215–C217.
-/

namespace NewF
open Syn Flw

variable {L : Lex Str}

/-! ### what holds of the list of flowables of a Qdb -/

structure Good (s : State Str) : Prop where
  both : Both s.dict
  lenN : s.names.length = s.items.length
  lenC : s.cas.length = s.items.length
  live : ∀ (i : ℕ), i < s.items.length → ∃ l, s.items[i]? = some (some l)
  lt : ∀ k (i : ℕ), s.dict.get? k = some i → i < s.items.length
  half : ∀ k p, pad k = some p → k ≠ p → k ≠ trim p → s.dict.get? k = none

/-- nothing that is known is forgotten or moved -/
def Ext (s s' : State Str) : Prop := ∀ t (i : ℕ), s.dict.get? t = some i → s'.dict.get? t = some i

theorem Ext.refl (s : State Str) : Ext s s := fun _ _ h => h
theorem Ext.trans {a b c : State Str} (h : Ext a b) (h' : Ext b c) : Ext a c := fun t i e => h' t i (h t i e)

theorem good_init : Good {} := by
  constructor
  · intro c p _ _; rfl
  · rfl
  · rfl
  · intro i hi; simp at hi
  · intro k i h; simp at h
  · intro k p _ _ _; rfl

theorem good_lists {s s' : State Str} (h : Good s) (hb : Both s'.dict) (hi : s'.items.length = s.items.length)
    (hn : s'.names.length = s.names.length) (hc : s'.cas.length = s.cas.length)
    (hl : ∀ (i : ℕ), (∃ l, s.items[i]? = some (some l)) → ∃ l, s'.items[i]? = some (some l))
    (hd : ∀ k (i : ℕ), s'.dict.get? k = some i → i < s.items.length)
    (hh : ∀ k (i : ℕ), s'.dict.get? k = some i → s.dict.get? k = some i ∨ pad k = none ∨ ∃ p, pad k = some p ∧ (k = p ∨ k = trim p)) :
    Good s' where
  both := hb
  lenN := by rw [hn, hi, h.lenN]
  lenC := by rw [hc, hi, h.lenC]
  live i hlt := hl i (h.live i (by omega))
  lt k i hk := by rw [hi]; exact hd k i hk
  half k p hp h1 h2 := by
    cases hk : s'.dict.get? k with
    | none => rfl
    | some i =>
      rcases hh k i hk with h3 | h3 | ⟨p', h3, h4⟩
      · rw [h.half k p hp h1 h2] at h3; simp at h3
      · rw [h3] at hp; simp at hp
      · rw [h3] at hp; simp at hp; subst hp; tauto

theorem set_live {items : List (Option (List Str))} {index : ℕ} {x : List Str} (i : ℕ)
    (h : ∃ l, items[i]? = some (some l)) : ∃ l, (items.set index (some x))[i]? = some (some l) := by
  rw [List.getElem?_set]
  split
  · rename_i e; subst e
    obtain ⟨l, hl⟩ := h
    have := (List.getElem?_eq_some_iff.mp hl).1
    simp [this]
  · exact h

/-- the end of `_new_term`, on a live item -/
theorem finish_ok {t k : Str} {index : ℕ} {s : State Str} (hn : s.names.length = s.items.length)
    (hl : ∃ l, s.items[index]? = some (some l)) :
    ∃ s', finish t k index s = .ok () s' ∧ s'.dict = s.dict.set k index ∧ s'.items.length = s.items.length ∧
      s'.names.length = s.names.length ∧ s'.cas = s.cas ∧
      ∀ (i : ℕ), (∃ l, s.items[i]? = some (some l)) → ∃ l, s'.items[i]? = some (some l) := by
  obtain ⟨l, hl⟩ := hl
  have hlt := (List.getElem?_eq_some_iff.mp hl).1
  obtain ⟨n, hn'⟩ : ∃ n, s.names[index]? = some n := ⟨s.names[index], List.getElem?_eq_getElem (by omega)⟩
  unfold finish
  rw [hl]
  simp only [hn']
  cases n with
  | none => exact ⟨_, rfl, rfl, by simp, by simp, rfl, fun i h => set_live i h⟩
  | some n =>
    simp only
    cases hb : (isCas n && !isCas t) with
    | true => exact ⟨_, rfl, rfl, by simp, by simp, rfl, fun i h => set_live i h⟩
    | false => exact ⟨_, rfl, rfl, by simp, by simp, rfl, fun i h => set_live i h⟩

/-- the inherited `_new_term`, on a live item -/
theorem newTerm_cases {t : Str} {index : ℕ} {s : State Str} (hb : t ≠ L.blank) (hn : s.names.length = s.items.length)
    (hl : ∃ l, s.items[index]? = some (some l)) :
    ∃ s', s'.items.length = s.items.length ∧ s'.names.length = s.names.length ∧ s'.cas = s.cas ∧
      (∀ (i : ℕ), (∃ l, s.items[i]? = some (some l)) → ∃ l, s'.items[i]? = some (some l)) ∧
      ((newTerm L t index s = .err .termFound s' ∧ s'.dict = s.dict ∧
          ∃ j, s.dict.get? (L.san t) = some j ∧ j ≠ index) ∨
       (newTerm L t index s = .ok () s' ∧ (∀ j, s.dict.get? (L.san t) = some j → j = index) ∧
          ∀ x, s'.dict.get? x = if L.san t = x then some index else s.dict.get? x)) := by
  obtain ⟨l, hl⟩ := hl
  have hlt := (List.getElem?_eq_some_iff.mp hl).1
  obtain ⟨n, hn'⟩ : ∃ n, s.names[index]? = some n := ⟨s.names[index], List.getElem?_eq_getElem (by omega)⟩
  unfold newTerm
  rw [if_neg hb]
  simp only [hl]
  cases hj : s.dict.get? (L.san t) with
  | some j =>
    simp only
    by_cases e : j = index
    · rw [if_pos e]
      refine ⟨{ s with items := s.items.set index (some (PySet.add l t)) }, by simp, rfl, rfl, fun i h => set_live i h,
        Or.inr ⟨rfl, ?_, ?_⟩⟩
      · intro j' h'; simp at h'; omega
      · intro x
        split
        · rename_i e'; subst e'; subst e; exact hj
        · rfl
    · rw [if_neg e]
      exact ⟨{ s with items := s.items.set index (some (PySet.add l t)) }, by simp, rfl, rfl, fun i h => set_live i h, Or.inl ⟨rfl, rfl, j, rfl, e⟩⟩
  | none =>
    simp only [hn']
    cases n with
    | none =>
      refine ⟨{ s with items := s.items.set index (some (PySet.add l t)), dict := s.dict.set (L.san t) index, names := s.names.set index (some t) },
        by simp, by simp, rfl, fun i h => set_live i h, Or.inr ⟨rfl, by simp, ?_⟩⟩
      intro x; exact Dict.get?_set _ _ _ _
    | some n =>
      refine ⟨{ s with items := s.items.set index (some (PySet.add l t)), dict := s.dict.set (L.san t) index },
        by simp, by simp, rfl, fun i h => set_live i h, Or.inr ⟨rfl, by simp, ?_⟩⟩
      intro x; exact Dict.get?_set _ _ _ _

/-- what one call of `_new_term` does -/
structure Term1 (L : Lex Str) (t : Str) (index : ℕ) (s : State Str) (r : Out (State Str) Err Unit) : Prop where
  good : Good r.state
  ext : Ext s r.state
  len : r.state.items.length = s.items.length
  known : r.error? = none → t ≠ L.blank → Whole L t → getIndex L r.state t = some index
  fresh : ∀ k (i : ℕ), r.state.dict.get? k = some i → s.dict.get? k = none → i = index
  err : ∀ e, r.error? = some e → e = .conflictingCas ∨ e = .termFound
  plain : (getIndex L s t = none ∨ getIndex L s t = some index) → isCas (L.san t) = false → r.error? = none
  cas : ∀ c, r.state.cas[index]? = some (some c) → s.cas[index]? = some (some c) ∨ (isCas (L.san t) = true ∧ trim c = trim (L.san t))
  casKnown : r.error? = none → t ≠ L.blank → ∀ p, pad (L.san t) = some p → r.state.dict.get? p = some index
  whole : (getIndex L s t = none ∨ getIndex L s t = some index) → Whole L t → r.error? ≠ some .termFound
  casErr : r.error? = some .conflictingCas → ∃ c, s.cas[index]? = some (some c) ∧ isCas (L.san t) = true ∧ trim c ≠ trim (L.san t)

theorem known_pad (hL : FLaw L) {s : State Str} (h : Good s) {t p : Str} {i : ℕ} (hk : s.dict.get? (L.san t) = some i)
    (hp : pad (L.san t) = some p) : s.dict.get? p = some i := by
  by_cases h1 : L.san t = p
  · rw [← h1]; exact hk
  · by_cases h2 : L.san t = trim p
    · rw [h.both _ p hp (hL.clean t), ← pad_trim hp, ← h2]; exact hk
    · rw [h.half _ p hp h1 h2] at hk; simp at hk

theorem newTermF_spec (hL : FLaw L) {s : State Str} (h : Good s) (t : Str) {index : ℕ} (hi : index < s.items.length) :
    Term1 L t index s (newTermF L t index s) := by
  have hboth := both_newTermF hL h.both t index
  have hlive := h.live index hi
  revert hboth
  unfold newTermF
  by_cases hb : t = L.blank
  · rw [if_pos hb]
    intro _
    exact ⟨h, Ext.refl _, rfl, fun _ h' => absurd hb h', fun k i h1 h2 => (by simp [Out.state, h2] at h1),
      fun e he => (by simp [Out.error?] at he), fun _ _ => rfl, fun c hc => Or.inl hc, fun _ h' => absurd hb h', fun _ _ => (by simp [Out.error?]),
      fun he => (by simp [Out.error?] at he)⟩
  · rw [if_neg hb]
    simp only
    cases hk : s.dict.get? (L.san t) with
    | some j =>
      simp only
      by_cases e : j = index
      · rw [if_pos e]
        intro _
        exact ⟨h, Ext.refl _, rfl, fun _ _ _ => (by subst e; exact hk), fun k i h1 h2 => (by simp [Out.state, h2] at h1),
          fun e he => (by simp [Out.error?] at he), fun _ _ => rfl, fun c hc => Or.inl hc, fun _ _ p hp => known_pad hL h (e ▸ hk) hp,
          fun _ _ => (by simp [Out.error?]),
          fun he => (by simp [Out.error?] at he)⟩
      · rw [if_neg e]
        intro _
        refine ⟨h, Ext.refl _, rfl, fun he => (by simp [Out.error?] at he), fun k i h1 h2 => (by simp [Out.state, h2] at h1),
          fun e he => (by simp [Out.error?] at he; exact Or.inr he.symm), fun hp _ => ?_, fun c hc => Or.inl hc,
          fun he => (by simp [Out.error?] at he), fun hp _ => ?_, fun he => (by simp [Out.error?] at he)⟩ <;>
        · unfold getIndex at hp
          rw [hk] at hp
          simp at hp
          exact absurd hp e
    | none =>
      simp only
      cases hc : isCas (L.san t) with
      | false =>
        simp only [Bool.false_eq_true, if_false]
        obtain ⟨s', e, hd, h1, h2, h3, h4⟩ := finish_ok (t := t) (k := L.san t) h.lenN hlive
        rw [e]
        intro hboth
        refine ⟨good_lists h hboth h1 h2 (by rw [Out.state, h3]) h4 ?_ ?_, ?_, h1, ?_, ?_, fun e he => (by simp [Out.error?] at he),
          fun _ _ => rfl, fun c hc => Or.inl (by rw [← hc, Out.state, h3]), fun _ _ p hp => (by rw [pad_isCas hp] at hc; simp at hc),
          fun _ _ => (by simp [Out.error?]),
          fun he => (by simp [Out.error?] at he)⟩
        · intro k i hk'
          simp only [Out.state] at hk'
          rw [hd, Dict.get?_set] at hk'
          split at hk'
          · simp at hk'; omega
          · exact h.lt k i hk'
        · intro k i hk'
          simp only [Out.state] at hk'
          rw [hd, Dict.get?_set] at hk'
          split at hk'
          · rename_i e'; subst e'
            right; left
            unfold pad; rw [hc]; rfl
          · exact Or.inl hk'
        · intro x i hx
          simp only [Out.state]
          rw [hd, Dict.get?_set]
          split
          · rename_i e'; rw [← e', hk] at hx; simp at hx
          · exact hx
        · intro _ _ _
          simp only [Out.state, getIndex]
          rw [hd, Dict.get?_set, if_pos rfl]
        · intro k i h5 h6
          simp only [Out.state] at h5
          rw [hd, Dict.get?_set] at h5
          split at h5
          · simp at h5; exact h5.symm
          · rw [h6] at h5; simp at h5
      | true =>
        simp only [if_true]
        obtain ⟨c0, hc0⟩ : ∃ c, s.cas[index]? = some c := ⟨s.cas[index]'(by have := h.lenC; omega), List.getElem?_eq_getElem _⟩
        rw [hc0]
        simp only
        cases hcf : conflicts c0 (L.san t) with
        | true =>
          simp only [if_true]
          intro _
          refine ⟨h, Ext.refl _, rfl, fun he => (by simp [Out.error?] at he), fun k i h1 h2 => (by simp [Out.state, h2] at h1),
            fun e he => (by simp [Out.error?] at he; exact Or.inl he.symm), fun _ hp => (by rw [hc] at hp; simp at hp),
            fun c hc => Or.inl hc, fun he => (by simp [Out.error?] at he), fun _ _ => (by simp [Out.error?]), fun _ => ?_⟩
          unfold conflicts at hcf
          cases c0 with
          | none => simp at hcf
          | some c => exact ⟨c, hc0, hc, by simpa using hcf⟩
        | false =>
          simp only [Bool.false_eq_true, if_false]
          have hsome := (C14_pad_trim (L.san t)).1.mpr ((isCas_iff _).mp hc)
          obtain ⟨k, hp⟩ := Option.isSome_iff_exists.mp hsome
          rw [hp]
          simp only
          have htk := pad_trim hp
          have hsan := san_trim hL hc hp
          have hbl : trim k ≠ L.blank := by rw [hL.blank, htk]; exact (trim_ne_nil hc).1
          have hnl : (L.san t).getLast? ≠ some '\n' := hL.clean t
          have hbk := h.both (L.san t) k hp hnl
          obtain ⟨s2, h1, h2, h3, h4, h5⟩ := newTerm_cases (L := L) (t := trim k) (index := index)
            (s := { s with cas := s.cas.set index (some k) }) hbl h.lenN hlive
          rcases h5 with ⟨e, hd, j, hj, hjne⟩ | ⟨e, hj, hd⟩
          · rw [e]
            simp only [Out.bind]
            intro hboth
            refine ⟨good_lists h hboth h1 h2 (by simp [Out.state, h3]) h4 ?_ ?_, ?_, h1, fun he => (by simp [Out.error?] at he), ?_,
              fun e he => (by simp [Out.error?] at he; exact Or.inr he.symm), fun _ hp => (by rw [hc] at hp; simp at hp),
              fun c hc' => ?_, fun he => (by simp [Out.error?] at he), fun _ hw => ?_, fun he => (by simp [Out.error?] at he)⟩
            · intro k' i hk'
              simp only [Out.state, hd] at hk'
              exact h.lt k' i hk'
            · intro k' i hk'
              simp only [Out.state, hd] at hk'
              exact Or.inl hk'
            · intro x i hx
              simp only [Out.state, hd]; exact hx
            · intro k' i h6 h7
              simp only [Out.state, hd, h7] at h6
              simp at h6
            · simp only [Out.state, h3] at hc'
              have hlt : index < s.cas.length := by have := h.lenC; omega
              simp [hlt] at hc'
              right
              exact ⟨hc, by rw [← hc', htk]⟩
            · exfalso
              rw [hsan] at hj
              simp only at hj
              rcases hw k hp with e1 | e1
              · rw [← hbk, ← e1, hk] at hj; simp at hj
              · rw [← htk, ← e1, hk] at hj; simp at hj
          · rw [e]
            simp only [Out.bind]
            rw [hsan] at hj hd
            have hl2 := h4 index hlive
            have hn2 : s2.names.length = s2.items.length := by rw [h1, h2]; exact h.lenN
            obtain ⟨s', e', hd', g1, g2, g3, g4⟩ := finish_ok (t := t) (k := k) hn2 hl2
            rw [e']
            intro hboth
            have hget : ∀ x, s'.dict.get? x = if k = x then some index else if trim (L.san t) = x then some index else
                s.dict.get? x := by
              intro x
              rw [hd', Dict.get?_set, hd x]
            refine ⟨good_lists h hboth (by simp [Out.state, g1, h1]) (by simp [Out.state, g2, h2]) (by simp [Out.state, g3, h3])
              (fun i hi => g4 i (h4 i hi)) ?_ ?_, ?_, by simp [Out.state, g1, h1], ?_, ?_,
              fun e he => (by simp [Out.error?] at he), fun _ _ => rfl, fun c hc' => ?_, fun _ _ p hp' => ?_, fun _ _ => (by simp [Out.error?]),
              fun he => (by simp [Out.error?] at he)⟩
            · intro k' i hk'
              simp only [Out.state] at hk'
              rw [hget] at hk'
              split at hk'
              · simp at hk'; omega
              · split at hk'
                · simp at hk'; omega
                · exact h.lt k' i hk'
            · intro k' i hk'
              simp only [Out.state] at hk'
              rw [hget] at hk'
              split at hk'
              · rename_i e1; subst e1
                exact Or.inr (Or.inr ⟨k, pad_pad hp, Or.inl rfl⟩)
              · split at hk'
                · rename_i e1; subst e1
                  obtain ⟨p', hp'⟩ := Option.isSome_iff_exists.mp
                    ((C14_pad_trim (trim (L.san t))).1.mpr ((isCas_iff _).mp (trim_ne_nil hc).2))
                  exact Or.inr (Or.inr ⟨p', hp', Or.inr (by rw [pad_trim hp', trim_idem])⟩)
                · exact Or.inl hk'
            · intro x i hx
              simp only [Out.state]
              rw [hget]
              split
              · rename_i e1
                subst e1
                rw [hbk] at hx
                rw [hj i hx]
              · split
                · rename_i e1
                  rw [← e1] at hx
                  rw [hj i hx]
                · exact hx
            · intro _ _ hw
              simp only [Out.state, getIndex]
              rw [hget]
              rcases hw k hp with e1 | e1
              · rw [if_pos e1.symm]
              · split
                · rfl
                · rw [if_pos]
                  rw [← htk, ← e1]
            · intro k' i h6 h7
              simp only [Out.state] at h6
              rw [hget, h7] at h6
              split at h6
              · simp at h6; exact h6.symm
              · split at h6
                · simp at h6; exact h6.symm
                · simp at h6
            · simp only [Out.state, g3, h3] at hc'
              have hlt : index < s.cas.length := by have := h.lenC; omega
              simp [hlt] at hc'
              right
              exact ⟨hc, by rw [← hc', htk]⟩
            · rw [hp] at hp'
              simp at hp'
              subst hp'
              simp only [Out.state]
              rw [hget, if_pos rfl]

/-- what `_merge_set_with_index` does -/
structure Many (L : Lex Str) (ts : List Str) (index : ℕ) (s : State Str) (r : Out (State Str) Err Unit) : Prop where
  good : Good r.state
  ext : Ext s r.state
  len : r.state.items.length = s.items.length
  known : r.error? = none → ∀ t ∈ ts, t ≠ L.blank → Whole L t → getIndex L r.state t = some index
  fresh : ∀ k (i : ℕ), r.state.dict.get? k = some i → s.dict.get? k = none → i = index
  err : ∀ e, r.error? = some e → e = .conflictingCas ∨ e = .termFound
  casKnown : r.error? = none → ∀ t ∈ ts, t ≠ L.blank → ∀ p, pad (L.san t) = some p → r.state.dict.get? p = some index
  whole : (∀ t ∈ ts, (getIndex L s t = none ∨ getIndex L s t = some index) ∧ Whole L t) → r.error? ≠ some .termFound

theorem mergeSet_spec (hL : FLaw L) (ts : List Str) {index : ℕ} : ∀ {s : State Str}, Good s → index < s.items.length →
    Many L ts index s (mergeSet (newTermF L) ts index s) := by
  induction ts with
  | nil =>
    intro s h _
    exact ⟨h, Ext.refl _, rfl, fun _ t ht => (by simp at ht), fun k i h1 h2 => (by simp [mergeSet, Out.state, h2] at h1),
      fun e he => (by simp [mergeSet, Out.error?] at he), fun _ t ht => (by simp at ht), fun _ => (by simp [mergeSet, Out.error?])⟩
  | cons t ts ih =>
    intro s h hi
    have h1 := newTermF_spec hL h t hi
    rw [mergeSet]
    cases hr : newTermF L t index s with
    | err e s2 =>
      rw [hr] at h1
      simp only [Out.bind]
      refine ⟨h1.good, h1.ext, h1.len, fun he => (by simp [Out.error?] at he), h1.fresh, h1.err, fun he => (by simp [Out.error?] at he),
        fun hw => ?_⟩
      exact h1.whole (hw t (by simp)).1 (hw t (by simp)).2
    | ok u s2 =>
      rw [hr] at h1
      simp only [Out.bind]
      have hlen : s2.items.length = s.items.length := h1.len
      have h2 := ih (s := s2) h1.good (by rw [hlen]; exact hi)
      refine ⟨h2.good, h1.ext.trans h2.ext, by rw [h2.len]; exact hlen, ?_, ?_, h2.err, ?_, ?_⟩
      · intro he x hx hxb hw
        rcases List.mem_cons.mp hx with rfl | hx
        · exact h2.ext _ _ (h1.known rfl hxb hw)
        · exact h2.known he x hx hxb hw
      · intro k i h3 h4
        cases h5 : s2.dict.get? k with
        | none => exact h2.fresh k i h3 h5
        | some j =>
          have h6 := h2.ext k j h5
          rw [h3] at h6
          simp at h6
          rw [h6]
          exact h1.fresh k j h5 h4
      · intro he x hx hxb p hp
        rcases List.mem_cons.mp hx with rfl | hx
        · exact h2.ext _ _ (h1.casKnown rfl hxb p hp)
        · exact h2.casKnown he x hx hxb p hp
      · intro hw
        apply h2.whole
        intro x hx
        refine ⟨?_, (hw x (by simp [hx])).2⟩
        rcases (hw x (by simp [hx])).1 with h3 | h3
        · cases h5 : getIndex L s2 x with
          | none => exact Or.inl rfl
          | some j => exact Or.inr (by rw [h1.fresh _ j h5 h3])
        · exact Or.inr (h1.ext _ _ h3)

/-- `_merge_set_with_index` raises ConflictingCas only if a CAS number of the set differs from another, or from that of the item -/
theorem mergeSet_noConflict (hL : FLaw L) (ts : List Str) {index : ℕ} (c : Str) : ∀ {s : State Str}, Good s → index < s.items.length →
    (∀ t ∈ ts, isCas (L.san t) = true → trim (L.san t) = c) → (∀ c', s.cas[index]? = some (some c') → trim c' = c) →
    (mergeSet (newTermF L) ts index s).error? ≠ some .conflictingCas := by
  induction ts with
  | nil => intro s _ _ _ _; simp [mergeSet, Out.error?]
  | cons t ts ih =>
    intro s h hi ht hc
    have h1 := newTermF_spec hL h t hi
    rw [mergeSet]
    cases hr : newTermF L t index s with
    | err e s2 =>
      rw [hr] at h1
      simp only [Out.bind]
      intro he
      obtain ⟨c', h3, h4, h5⟩ := h1.casErr he
      exact h5 (by rw [hc c' h3, ht t (by simp) h4])
    | ok u s2 =>
      rw [hr] at h1
      simp only [Out.bind]
      have hlen : s2.items.length = s.items.length := h1.len
      apply ih (s := s2) h1.good (by rw [hlen]; exact hi) (fun x hx => ht x (by simp [hx]))
      intro c' hc'
      rcases h1.cas c' hc' with h3 | ⟨h3, h4⟩
      · exact hc c' h3
      · rw [h4, ht t (by simp) h3]

/-- the same, if no term is a CAS number -/
theorem mergeSet_plain (hL : FLaw L) (ts : List Str) {index : ℕ} : ∀ {s : State Str}, Good s → index < s.items.length →
    (∀ t ∈ ts, isCas (L.san t) = false) → (mergeSet (newTermF L) ts index s).error? ≠ some .conflictingCas := by
  induction ts with
  | nil => intro s _ _ _; simp [mergeSet, Out.error?]
  | cons t ts ih =>
    intro s h hi ht
    have h1 := newTermF_spec hL h t hi
    rw [mergeSet]
    cases hr : newTermF L t index s with
    | err e s2 =>
      rw [hr] at h1
      simp only [Out.bind]
      intro he
      obtain ⟨c', h3, h4, h5⟩ := h1.casErr he
      rw [ht t (by simp)] at h4
      simp at h4
    | ok u s2 =>
      rw [hr] at h1
      simp only [Out.bind]
      have hlen : s2.items.length = s.items.length := h1.len
      exact ih (s := s2) h1.good (by rw [hlen]; exact hi) (fun x hx => ht x (by simp [hx]))

/-! ### CAS numbers that clash -/

theorem findCas_cases (ts : List Str) :
    (findCas ts = .error .conflictingCas ∧ ∃ a ∈ ts, isCas a = true ∧ ∃ b ∈ ts, isCas b = true ∧ trim a ≠ trim b) ∨
    (findCas ts = .ok none ∧ ∀ a ∈ ts, isCas a = false) ∨
    (∃ a ∈ ts, isCas a = true ∧ findCas ts = .ok (some (trim a)) ∧ ∀ b ∈ ts, isCas b = true → trim b = trim a) := by
  unfold findCas
  have hmem : ∀ x, x ∈ PySet.ofList ((ts.filter isCas).map trim) ↔ ∃ a ∈ ts, isCas a = true ∧ trim a = x := by
    intro x; simp [and_assoc]
  have hnd := PySet.nodup_ofList ((ts.filter isCas).map trim)
  cases hl : PySet.ofList ((ts.filter isCas).map trim) with
  | nil =>
    right; left
    refine ⟨rfl, fun a ha => ?_⟩
    by_contra hc
    have := (hmem (trim a)).mpr ⟨a, ha, by simpa using hc, rfl⟩
    rw [hl] at this; simp at this
  | cons x l =>
    cases l with
    | nil =>
      right; right
      obtain ⟨a, ha, hca, hx⟩ := (hmem x).mp (by rw [hl]; simp)
      refine ⟨a, ha, hca, by rw [hx], fun b hb hcb => ?_⟩
      have := (hmem (trim b)).mpr ⟨b, hb, hcb, rfl⟩
      rw [hl] at this
      simp at this
      rw [this, hx]
    | cons y l =>
      left
      obtain ⟨a, ha, hca, hx⟩ := (hmem x).mp (by rw [hl]; simp)
      obtain ⟨b, hb, hcb, hy⟩ := (hmem y).mp (by rw [hl]; simp)
      refine ⟨rfl, a, ha, hca, b, hb, hcb, ?_⟩
      rw [hx, hy]
      rw [hl] at hnd
      simp at hnd
      exact hnd.1.1

theorem clean_last (hL : FLaw L) {t : Str} (h : isCas (L.san t) = true) (hc : Clean L t) : t.getLast? ≠ some '\n' := by
  rw [← hc h]; exact hL.clean t

theorem conflicts_iff (c0 : Option Str) (k : Str) : conflicts c0 k = true ↔ ∃ c, c0 = some c ∧ trim c ≠ trim k := by
  cases c0 <;> simp [conflicts]

theorem mergeSetF_many (hL : FLaw L) (ts : List Str) {index : ℕ} {s : State Str} (h : Good s) (hi : index < s.items.length) :
    Many L ts index s (mergeSetF L ts index s) := by
  have hm := mergeSet_spec hL ts h hi
  have hbad : Many L ts index s (.err .conflictingCas s) :=
    ⟨h, Ext.refl _, rfl, fun he => (by simp [Out.error?] at he), fun k i h1 h2 => (by simp [Out.state, h2] at h1),
      fun e he => (by simp [Out.error?] at he; exact Or.inl he.symm), fun he => (by simp [Out.error?] at he),
      fun _ => (by simp [Out.error?])⟩
  unfold mergeSetF
  rcases findCas_cases ts with ⟨e, _⟩ | ⟨e, _⟩ | ⟨a, _, _, e, _⟩
  · rw [e]; exact hbad
  · rw [e]; exact hm
  · rw [e]
    obtain ⟨c0, hc0⟩ : ∃ c, s.cas[index]? = some c := ⟨s.cas[index]'(by have := h.lenC; omega), List.getElem?_eq_getElem _⟩
    simp only [hc0]
    split
    · exact hbad
    · exact hm

theorem mergeSetF_clash {ts : List Str} {index : ℕ} {s : State Str} (h : Good s) (hi : index < s.items.length)
    (hc : Clash (s.cas[index]?).join ts) : mergeSetF L ts index s = .err .conflictingCas s := by
  obtain ⟨x, hx, hxc, hor⟩ := hc
  have hxc := (isCas_iff x).mpr hxc
  unfold mergeSetF
  rcases findCas_cases ts with ⟨e, _⟩ | ⟨e, hno⟩ | ⟨a, ha, hca, e, hall⟩
  · rw [e]
  · rw [hno x hx] at hxc; simp at hxc
  · rw [e]
    obtain ⟨c0, hc0⟩ : ∃ c, s.cas[index]? = some c := ⟨s.cas[index]'(by have := h.lenC; omega), List.getElem?_eq_getElem _⟩
    rw [hc0] at hor
    simp only [hc0]
    rw [if_pos]
    rcases hor with ⟨b, hb, hbc, hne⟩ | ⟨c, h1, h2⟩
    · exact absurd (by rw [hall x hx hxc, hall b hb ((isCas_iff b).mpr hbc)]) hne
    · rw [conflicts_iff]
      exact ⟨c, by simpa using h1, by rw [trim_idem, ← hall x hx hxc]; exact h2⟩

theorem mergeSetF_ok (hL : FLaw L) {ts : List Str} {index : ℕ} {s : State Str} (h : Good s) (hi : index < s.items.length)
    (hcl : ∀ t ∈ ts, Clean L t ∧ Whole L t ∧ getIndex L s t = none) (hc : ¬ Clash (s.cas[index]?).join ts) :
    ∃ s', mergeSetF L ts index s = .ok () s' := by
  have hm := mergeSetF_many hL ts h hi
  have hne : (mergeSetF L ts index s).error? ≠ some .conflictingCas := by
    unfold mergeSetF
    rcases findCas_cases ts with ⟨e, a, ha, hca, b, hb, hcb, hne⟩ | ⟨e, hno⟩ | ⟨a, ha, hca, e, hall⟩
    · exact absurd ⟨a, ha, (isCas_iff a).mp hca, Or.inl ⟨b, hb, (isCas_iff b).mp hcb, hne⟩⟩ hc
    · rw [e]
      simp only
      apply mergeSet_plain hL ts h hi
      intro t ht
      by_contra hcas
      have hcas : isCas (L.san t) = true := by simpa using hcas
      have := (hcl t ht).1 hcas
      rw [this, hno t ht] at hcas
      simp at hcas
    · rw [e]
      obtain ⟨c0, hc0⟩ : ∃ c, s.cas[index]? = some c := ⟨s.cas[index]'(by have := h.lenC; omega), List.getElem?_eq_getElem _⟩
      rw [hc0] at hc
      simp only [hc0]
      have hcf : conflicts c0 (trim a) = false := by
        by_contra hcf
        have hcf : conflicts c0 (trim a) = true := by simpa using hcf
        rw [conflicts_iff] at hcf
        obtain ⟨c, h1, h2⟩ := hcf
        rw [trim_idem] at h2
        exact hc ⟨a, ha, (isCas_iff a).mp hca, Or.inr ⟨c, by simpa using h1, h2⟩⟩
      rw [hcf]
      simp only [Bool.false_eq_true, if_false]
      apply mergeSet_noConflict hL ts (trim a) h hi
      · intro t ht hcas
        have := (hcl t ht).1 hcas
        rw [this] at hcas ⊢
        exact hall t ht hcas
      · intro c' hc'
        rw [hc0] at hc'
        simp at hc'
        by_contra hne
        have : conflicts c0 (trim a) = true := by
          rw [conflicts_iff]; exact ⟨c', hc', by rw [trim_idem]; exact hne⟩
        rw [hcf] at this; simp at this
  have hne2 := hm.whole (fun t ht => ⟨Or.inl (hcl t ht).2.2, (hcl t ht).2.1⟩)
  cases hr : mergeSetF L ts index s with
  | ok u s' => exact ⟨s', rfl⟩
  | err e s' =>
    rw [hr] at hne hne2 hm
    rcases hm.err e rfl with rfl | rfl
    · exact absurd rfl hne
    · exact absurd rfl hne2

/-! ### `add_set` and `add_new_flowable` -/

theorem mem_unknown {s : State Str} {terms : List Str} {t : Str} :
    t ∈ unknown L s terms ↔ t ∈ terms ∧ getIndex L s t = none := by
  simp [unknown]

theorem mem_unmatched {o : PyOrd Str} {s : State Str} {terms : List Str} {t : Str} :
    t ∈ unmatchedOf L o terms s ↔ t ∈ unknown L s terms := by
  simp [unmatchedOf, unknown, o.mem]

theorem clash_congr {c0 : Option Str} {l m : List Str} (h : ∀ t, t ∈ l ↔ t ∈ m) : Clash c0 l ↔ Clash c0 m := by
  simp [Clash, h]

theorem newItem_good {s : State Str} (h : Good s) : Good (newItem s).2 where
  both := h.both
  lenN := by simp [newItem, h.lenN]
  lenC := by simp [newItem, h.lenC]
  live i hi := by
    simp only [newItem] at hi ⊢
    rw [List.getElem?_append]
    split
    · rename_i hlt; exact h.live i hlt
    · simp at hi
      have : i - s.items.length = 0 := by omega
      rw [this]; exact ⟨[], rfl⟩
  lt k i hk := by
    have := h.lt k i hk
    simp [newItem]; omega
  half := h.half

theorem newItem_lt (s : State Str) : s.items.length < (newItem s).2.items.length := by simp [newItem]

theorem newItem_cas {s : State Str} (h : Good s) : ((newItem s).2.cas[s.items.length]?).join = none := by
  simp [newItem, ← h.lenC]

/-- `_new_set` of unknown terms -/
theorem newSet_eq {it : List Str} {s : State Str} (hne : it ≠ []) (hu : ∀ t ∈ it, getIndex L s t = none) :
    newSet L (mergeSetF L) it s =
      (mergeSetF L it s.items.length (newItem s).2).bind fun _ s2 => .ok (some s.items.length) s2 := by
  have : it.filter (fun t => (getIndex L s t).isNone) = it := by
    rw [List.filter_eq_self]; intro t ht; simp [hu t ht]
  unfold newSet
  simp only [this]
  rw [if_neg hne]
  rfl

theorem newSet_nil {s : State Str} : newSet L (mergeSetF L) [] s = .ok none s := by simp [newSet]

theorem bind_err {α β : Type} (r : Out (State Str) Err α) (f : α → β) :
    (r.bind fun a s => .ok (f a) s).error? = r.error? := by cases r <;> rfl

/-- `add_set`, by what the known terms lead to -/
theorem addSet_cases (o : PyOrd Str) (terms : List Str) (m : Bool) (s : State Str) :
    ((∀ t ∈ terms, getIndex L s t = none) ∧
      addSet L o (mergeSetF L) terms m s = newSet L (mergeSetF L) (unmatchedOf L o terms s) s) ∨
    (m = false ∧ addSet L o (mergeSetF L) terms m s = newSet L (mergeSetF L) (unmatchedOf L o terms s) s) ∨
    (m = true ∧ ∃ index, (∃ t ∈ terms, getIndex L s t = some index) ∧ (∀ t ∈ terms, ∀ j, getIndex L s t = some j → j = index) ∧
      addSet L o (mergeSetF L) terms m s =
        (mergeSetF L (unmatchedOf L o terms s) index s).bind fun _ s' => .ok (some index) s') ∨
    (m = true ∧ (∃ a ∈ terms, ∃ b ∈ terms, ∃ i j, getIndex L s a = some i ∧ getIndex L s b = some j ∧ i ≠ j) ∧
      addSet L o (mergeSetF L) terms m s = .err .inconsistent s) := by
  have hmem : ∀ i, i ∈ PySet.ofList (terms.filterMap (getIndex L s)) ↔ ∃ t ∈ terms, getIndex L s t = some i := by
    intro i; simp
  have hnd := PySet.nodup_ofList (terms.filterMap (getIndex L s))
  unfold addSet unmatchedOf
  simp only
  cases hl : PySet.ofList (terms.filterMap (getIndex L s)) with
  | nil =>
    left
    refine ⟨fun t ht => ?_, by cases m <;> rfl⟩
    cases hk : getIndex L s t with
    | none => rfl
    | some i =>
      have := (hmem i).mpr ⟨t, ht, hk⟩
      rw [hl] at this; simp at this
  | cons x l =>
    cases m with
    | false => right; left; exact ⟨rfl, rfl⟩
    | true =>
      cases l with
      | nil =>
        right; right; left
        refine ⟨rfl, x, (hmem x).mp (by rw [hl]; simp), fun t ht j hj => ?_, rfl⟩
        have := (hmem j).mpr ⟨t, ht, hj⟩
        rw [hl] at this; simpa using this
      | cons y l =>
        right; right; right
        obtain ⟨a, ha, hxa⟩ := (hmem x).mp (by rw [hl]; simp)
        obtain ⟨b, hb, hyb⟩ := (hmem y).mp (by rw [hl]; simp)
        refine ⟨rfl, ⟨a, ha, b, hb, x, y, hxa, hyb, ?_⟩, rfl⟩
        rw [hl] at hnd
        simp at hnd
        exact hnd.1.1

/-- what every call keeps, and what it makes known -/
structure Keeps (L : Lex Str) (terms : List Str) (s : State Str) (r : Out (State Str) Err (Option ℕ)) : Prop where
  good : Good r.state
  ext : Ext s r.state
  known : r.error? = none → ∀ t ∈ terms, t ≠ L.blank → Whole L t → ∃ i, getIndex L r.state t = some i

theorem keeps_merge (hL : FLaw L) {o : PyOrd Str} {terms : List Str} {s : State Str} (h : Good s) {index : ℕ}
    (hi : index < s.items.length) (ts : List Str) (hts : ∀ t, t ∈ ts ↔ t ∈ unknown L s terms) :
    Keeps L terms s ((mergeSetF L ts index s).bind fun _ s' => .ok (some index) s') := by
  have hm := mergeSetF_many hL ts h hi
  refine ⟨?_, ?_, ?_⟩
  · rw [bind_state _ fun _ => some index]; exact hm.good
  · rw [bind_state _ fun _ => some index]; exact hm.ext
  · rw [bind_err _ fun _ => some index, bind_state _ fun _ => some index]
    intro he t ht hb hw
    cases hk : getIndex L s t with
    | some i => exact ⟨i, hm.ext _ _ hk⟩
    | none => exact ⟨index, hm.known he t ((hts t).mpr (mem_unknown.mpr ⟨ht, hk⟩)) hb hw⟩

theorem keeps_newSet (hL : FLaw L) {o : PyOrd Str} {terms : List Str} {s : State Str} (h : Good s) :
    Keeps L terms s (newSet L (mergeSetF L) (unmatchedOf L o terms s) s) := by
  by_cases hne : unmatchedOf L o terms s = []
  · rw [hne, newSet_nil]
    refine ⟨h, Ext.refl _, fun _ t ht _ _ => ?_⟩
    cases hk : getIndex L s t with
    | some i => exact ⟨i, hk⟩
    | none =>
      have := mem_unmatched (o := o).mpr (mem_unknown.mpr ⟨ht, hk⟩)
      rw [hne] at this; simp at this
  · rw [newSet_eq hne (fun t ht => (mem_unknown.mp (mem_unmatched.mp ht)).2)]
    have := keeps_merge (o := o) (terms := terms) hL (newItem_good h) (newItem_lt s) (unmatchedOf L o terms s)
      (fun t => mem_unmatched)
    exact ⟨this.good, this.ext, this.known⟩

theorem keeps_addSet (hL : FLaw L) (o : PyOrd Str) (terms : List Str) (m : Bool) {s : State Str} (h : Good s) :
    Keeps L terms s (addSet L o (mergeSetF L) terms m s) := by
  rcases addSet_cases (L := L) o terms m s with ⟨_, e⟩ | ⟨_, e⟩ | ⟨_, i, ⟨t, _, ht⟩, _, e⟩ | ⟨_, _, e⟩
  · rw [e]; exact keeps_newSet hL h
  · rw [e]; exact keeps_newSet hL h
  · rw [e]; exact keeps_merge (o := o) hL h (h.lt _ _ ht) _ (fun t => mem_unmatched)
  · rw [e]; exact ⟨h, Ext.refl _, fun he => (by simp [Out.error?] at he)⟩

theorem highest_spec (terms : List Str) (s : State Str) {i : ℕ} (hi : ∃ t ∈ terms, getIndex L s t = some i)
    (hmax : ∀ t ∈ terms, ∀ j, getIndex L s t = some j → j ≤ i) : highest L terms s = i := by
  have hgen : ∀ (l : List ℕ) (a : ℕ), (∀ x ∈ l, x ≤ l.foldl max a) ∧ a ≤ l.foldl max a ∧ (l.foldl max a = a ∨ l.foldl max a ∈ l) := by
    intro l
    induction l with
    | nil => intro a; simp
    | cons x l ih =>
      intro a
      obtain ⟨h1, h2, h3⟩ := ih (max a x)
      simp only [List.foldl_cons]
      refine ⟨?_, by omega, ?_⟩
      · intro y hy
        rcases List.mem_cons.mp hy with rfl | hy
        · omega
        · exact h1 y hy
      · rcases h3 with h3 | h3
        · rw [h3]
          by_cases hx : a ≤ x
          · right; rw [Nat.max_eq_right hx]; simp
          · left; rw [Nat.max_eq_left (by omega)]
        · right; exact List.mem_cons_of_mem _ h3
  obtain ⟨h1, _, h3⟩ := hgen (terms.filterMap (getIndex L s)) 0
  have hmem : i ∈ terms.filterMap (getIndex L s) := by
    obtain ⟨t, ht, hk⟩ := hi
    exact List.mem_filterMap.mpr ⟨t, ht, hk⟩
  have h4 := h1 i hmem
  unfold highest
  rcases h3 with h3 | h3
  · omega
  · obtain ⟨t, ht, hk⟩ := List.mem_filterMap.mp h3
    have := hmax t ht _ hk
    omega

theorem highest_lt (terms : List Str) {s : State Str} (h : Good s) (hne : ∃ t ∈ terms, ∃ i, getIndex L s t = some i) :
    highest L terms s < s.items.length := by
  have hgen : ∀ (l : List ℕ) (a : ℕ), a < s.items.length → (∀ x ∈ l, x < s.items.length) → l.foldl max a < s.items.length := by
    intro l
    induction l with
    | nil => intro a ha _; exact ha
    | cons x l ih =>
      intro a ha hx
      simp only [List.foldl_cons]
      exact ih _ (by have := hx x (by simp); omega) (fun y hy => hx y (by simp [hy]))
  obtain ⟨t, ht, i, hk⟩ := hne
  have := h.lt _ _ hk
  apply hgen _ 0 (by omega)
  intro x hx
  obtain ⟨t, ht, hk⟩ := List.mem_filterMap.mp hx
  exact h.lt _ _ hk

theorem keeps_addNew (hL : FLaw L) (o : PyOrd Str) (terms : List Str) {s : State Str} (h : Good s) :
    Keeps L terms s (addNew L o terms s) := by
  have h1 := keeps_addSet hL o terms true h
  unfold addNew
  cases hr : addSet L o (mergeSetF L) terms true s with
  | ok r s' => rw [hr] at h1; exact h1
  | err e s' =>
    rw [hr] at h1
    cases e with
    | conflictingCas =>
      have h2 := keeps_addSet hL o terms false h1.good
      exact ⟨h2.good, h1.ext.trans h2.ext, h2.known⟩
    | inconsistent =>
      have h0 : s' = s ∧ ∃ t ∈ terms, ∃ i, getIndex L s t = some i := by
        rcases addSet_cases (L := L) o terms true s with ⟨hu, e⟩ | ⟨hf, _⟩ | ⟨_, i, ⟨t, ht, hk⟩, _, e⟩ | ⟨_, ⟨a, ha, _, _, i, _, hk, _⟩, e⟩
        · exfalso
          rw [e] at hr
          by_cases hne : unmatchedOf L o terms s = []
          · rw [hne, newSet_nil] at hr; simp at hr
          · rw [newSet_eq hne (fun t ht => (mem_unknown.mp (mem_unmatched.mp ht)).2)] at hr
            have hm := (mergeSetF_many hL (unmatchedOf L o terms s) (newItem_good h) (newItem_lt s)).err .inconsistent
            rw [← bind_err _ fun _ => some s.items.length, hr] at hm
            simpa using hm rfl
        · simp at hf
        · exfalso
          rw [e] at hr
          have hm := (mergeSetF_many hL (unmatchedOf L o terms s) h (h.lt _ _ hk)).err .inconsistent
          rw [← bind_err _ fun _ => some i, hr] at hm
          simpa using hm rfl
        · rw [e] at hr
          simp at hr
          exact ⟨hr.symm, a, ha, i, hk⟩
      obtain ⟨rfl, hne⟩ := h0
      simp only
      cases hem : (unmatchedOf L o terms s').isEmpty with
      | true =>
        simp only [if_true]
        refine ⟨h, Ext.refl _, fun _ t ht _ _ => ?_⟩
        cases hk : getIndex L s' t with
        | some i => exact ⟨i, hk⟩
        | none =>
          have := mem_unmatched (o := o).mpr (mem_unknown.mpr ⟨ht, hk⟩)
          rw [List.isEmpty_iff.mp hem] at this; simp at this
      | false =>
        simp only [Bool.false_eq_true, if_false]
        exact keeps_merge (o := o) hL h (highest_lt terms h hne) _ (fun t => by rw [o.mem, PySet.mem_ofList]; exact mem_unmatched)
    | keyError => exact h1
    | indexError => exact h1
    | attributeError => exact h1
    | typeError => exact h1
    | termFound => exact h1
    | cannotSplit => exact h1
    | notACas => exact h1

end NewF
