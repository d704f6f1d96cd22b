import Verif.Lemmas.Flowables

/-! Properties C14 (resolution of CAS numbers) and C15 of Flowables. -/

namespace Flw
open Syn

/-! ### a concrete `_sanitize` -/

/-- strip of ASCII whitespace -/
def strip (s : Str) : Str := ((s.dropWhile Char.isWhitespace).reverse.dropWhile Char.isWhitespace).reverse

/-- `_sanitize` with ignore_case, for ASCII letters and whitespace -/
def asciiLex : Lex Str := ⟨fun t => strip (t.map Char.toLower), []⟩

theorem dropWhile_head {p : Char → Bool} {l : Str} (h : ∀ c, l.head? = some c → p c = false) : l.dropWhile p = l := by
  cases l with
  | nil => rfl
  | cons a l => simp [List.dropWhile_cons, h a rfl]

theorem cas_chars {c : Str} (h : isCas c = true) (hl : c.getLast? ≠ some '\n') :
    ∀ x ∈ c, x.isDigit = true ∨ x = '-' := by
  obtain ⟨d, t, rfl, _, h2, h3⟩ := (isCas_iff c).mp h
  intro x hx
  rcases List.mem_append.mp hx with hx | hx
  · exact Or.inl (h2 x hx)
  · unfold casTail at h3
    split at h3
    · simp only [Bool.and_eq_true] at h3
      simp only [List.mem_cons, List.not_mem_nil, or_false] at hx
      rcases hx with rfl | rfl | rfl | rfl | rfl <;> simp_all
    · exact absurd (by simp) hl
    · simp at h3

theorem char_fix {x : Char} (h : x.isDigit = true ∨ x = '-') : x.toLower = x ∧ x.isWhitespace = false := by
  rcases h with h | h
  · simp only [Char.isDigit, Bool.and_eq_true, decide_eq_true_eq, ge_iff_le] at h
    obtain ⟨h1, h2⟩ := h
    rw [UInt32.le_iff_toNat_le] at h1 h2
    have e1 : ('0'.val).toNat = 48 := rfl
    have e2 : ('9'.val).toNat = 57 := rfl
    rw [e1] at h1; rw [e2] at h2
    constructor
    · unfold Char.toLower
      split
      · rename_i h'
        simp only [ge_iff_le] at h'
        have h3 := h'.1
        rw [UInt32.le_iff_toNat_le] at h3
        have e3 : ('A'.val).toNat = 65 := rfl
        rw [e3] at h3; omega
      · rfl
    · simp only [Char.isWhitespace, Bool.or_eq_false_iff, decide_eq_false_iff_not]
      refine ⟨⟨⟨?_, ?_⟩, ?_⟩, ?_⟩ <;> intro e <;> subst e <;> revert h1 <;> decide
  · subst h; decide

theorem asciiLaw : FLaw asciiLex := by
  refine ⟨?_, ?_, rfl⟩
  · intro c h hl
    have hc := cas_chars h hl
    have h1 : c.map Char.toLower = c := by
      conv_rhs => rw [← List.map_id c]
      exact List.map_congr_left (fun x hx => (char_fix (hc x hx)).1)
    simp only [asciiLex, strip]
    rw [h1, dropWhile_head (l := c) (fun x hx => (char_fix (hc x (List.mem_of_head? hx))).2),
      dropWhile_head (l := c.reverse) (fun x hx => (char_fix (hc x (by
        have := List.mem_of_head? hx; simpa using this))).2), List.reverse_reverse]
  · intro t h
    simp only [asciiLex, strip] at h
    rw [List.getLast?_reverse] at h
    have : ∀ (l : Str) x, (l.dropWhile Char.isWhitespace).head? = some x → Char.isWhitespace x = false := by
      intro l x hx
      induction l with
      | nil => simp at hx
      | cons a l ih =>
        rw [List.dropWhile_cons] at hx
        split at hx
        · exact ih hx
        · rename_i hn; simp at hx; subst hx; simpa using hn
    exact absurd (this _ _ h) (by decide)

/-! ### C15 -/

/-- States of a Flowables reached from an empty one by any calls, with any arguments and whether or not they
raise, except that each `merge` satisfies `MergeSound`: either it raises before changing anything (unknown
term, conflicting CAS), or its arguments name live items other than the dominant one. -/
inductive ReachF (L : Lex Str) : State Str → Prop
  | init : ReachF L {}
  | call {s : State Str} (op : Op Str) (o : PyOrd Str) (oN : PyOrd ℕ) : ReachF L s →
      (∀ d ts, op = .merge d ts → MergeSound L s d ts) → ReachF L (stepF L o oN op s).2

theorem reachF_inv {L : Lex Str} (hL : FLaw L) {s : State Str} (h : ReachF L s) : CInv L s := by
  induction h with
  | init => exact cinv_init
  | @call s op o oN _ hs ih =>
    cases op with
    | addTerm t => exact cinv_addTerm hL ih t
    | addSet l m => exact cinv_addSet hL ih o l m
    | addSynonym i t => exact cinv_newTermF hL ih t i
    | setName t => exact cinv_setName ih t
    | merge d ts => exact cinv_mergeF ih o oN (hs d ts rfl)
    | splitTerm t => exact cinv_splitTerm ih o t

/-- C15 (partial). After any such history, two CAS numbers that resolve to the same flowable are equal up to
leading zeros, and if the flowable is live, `cas` returns that number, up to leading zeros.
Missing: merges that raise half-way, and the value of `cas` for numbers that resolve to a flowable that has
been merged away: see `C15_fails_two` and `C15_fails_dead`. -/
theorem C15_partial {L : Lex Str} (hL : FLaw L) {s : State Str} (h : ReachF L s) {a b : Str} {i : ℕ}
    (ha : CasShape (L.san a)) (hb : CasShape (L.san b))
    (hia : getIndex L s a = some i) (hib : getIndex L s b = some i) :
    trim (L.san a) = trim (L.san b) ∧
    (s.items[i]? ≠ some none → ∃ c, casOf L s a = some (some c) ∧ trim c = trim (L.san a)) := by
  have hI := reachF_inv hL h
  refine ⟨hI.two _ _ i hia hib ((isCas_iff _).mpr ha) ((isCas_iff _).mpr hb), ?_⟩
  intro hne
  have hlt := hI.lt _ _ hia
  cases hx : s.items[i]? with
  | none => rw [List.getElem?_eq_none_iff] at hx; omega
  | some x =>
    cases x with
    | none => exact absurd hx hne
    | some l =>
      obtain ⟨c, h1, h2⟩ := hI.key _ i l hia ((isCas_iff _).mpr ha) hx
      exact ⟨c, by simp [casOf, hia, h1], h2⟩

/-- run calls on an empty Flowables -/
def exRunF (ops : List (Op Str)) : State Str :=
  ops.foldl (fun s op => (stepF asciiLex (PyOrd.id _) (PyOrd.id _) op s).2) {}

/-- formaldehyde and ethanol, a rejected set with two CAS numbers, a rejected synonym, and a merge -/
def exHistF : List (Op Str) :=
  [.addSet ["Formaldehyde".toList, "50-00-0".toList] false, .addTerm " 000064-17-5 ".toList,
   .addSet ["x".toList, "1-11-1".toList, "2-22-2".toList] false, .addSynonym 0 "64-17-5".toList,
   .addTerm "Methanal".toList, .merge "methanal".toList ["50-00-0".toList]]

theorem exReachF : ReachF asciiLex (exRunF exHistF) := by
  have call : ∀ {ops : List (Op Str)} {op}, ReachF asciiLex (exRunF ops) →
      (∀ d ts, op = .merge d ts → MergeSound asciiLex (exRunF ops) d ts) →
      ReachF asciiLex (exRunF (ops ++ [op])) := by
    intro ops op h hs
    have : exRunF (ops ++ [op]) = (stepF asciiLex (PyOrd.id _) (PyOrd.id _) op (exRunF ops)).2 := by
      simp [exRunF, List.foldl_append]
    rw [this]; exact .call op _ _ h hs
  have h0 : ReachF asciiLex (exRunF []) := .init
  have h1 := call (op := .addSet ["Formaldehyde".toList, "50-00-0".toList] false) h0 (by simp)
  have h2 := call (op := .addTerm " 000064-17-5 ".toList) h1 (by simp)
  have h3 := call (op := .addSet ["x".toList, "1-11-1".toList, "2-22-2".toList] false) h2 (by simp)
  have h4 := call (op := .addSynonym 0 "64-17-5".toList) h3 (by simp)
  have h5 := call (op := .addTerm "Methanal".toList) h4 (by simp)
  refine call (op := .merge "methanal".toList ["50-00-0".toList]) h5 ?_
  intro d ts e
  simp only [Op.merge.injEq] at e
  obtain ⟨rfl, rfl⟩ := e
  refine ⟨by decide +kernel, ?_⟩
  intro t ht i hi
  have hti : getIndex asciiLex (exRunF ((((([] ++ [Op.addSet ["Formaldehyde".toList, "50-00-0".toList] false]) ++
      [.addTerm " 000064-17-5 ".toList]) ++ [.addSet ["x".toList, "1-11-1".toList, "2-22-2".toList] false]) ++
      [.addSynonym 0 "64-17-5".toList]) ++ [.addTerm "Methanal".toList])) t = some 3 ∨
      getIndex asciiLex (exRunF ((((([] ++ [Op.addSet ["Formaldehyde".toList, "50-00-0".toList] false]) ++
      [.addTerm " 000064-17-5 ".toList]) ++ [.addSet ["x".toList, "1-11-1".toList, "2-22-2".toList] false]) ++
      [.addSynonym 0 "64-17-5".toList]) ++ [.addTerm "Methanal".toList])) t = some 0 := by
    rcases ht with rfl | ht
    · left; decide +kernel
    · simp at ht; subst ht; right; decide +kernel
  rcases hti with e | e
  · rw [e] at hi; simp at hi; subst hi; decide +kernel
  · rw [e] at hi; simp at hi; subst hi; decide +kernel

/-- both forms of a CAS number resolve to the same live flowable, so `C15_partial` applies to them -/
example : CasShape (asciiLex.san "64-17-5".toList) ∧ CasShape (asciiLex.san " 000064-17-5".toList) ∧
    getIndex asciiLex (exRunF exHistF) "64-17-5".toList = some 1 ∧
    getIndex asciiLex (exRunF exHistF) " 000064-17-5".toList = some 1 ∧
    (exRunF exHistF).items[1]? ≠ some none ∧
    casOf asciiLex (exRunF exHistF) "formaldehyde".toList = some (some "000050-00-0".toList) := by
  simp only [← isCas_iff]
  decide +kernel

/-- C15 fails: after a merge, the padded form of the merged CAS number resolves to the flowable that was
merged away, where `cas` is None, while the trimmed form resolves to the dominant flowable. Hence also
C14's claim about resolution fails. -/
theorem C15_fails_dead : ReachF asciiLex (exRunF exHistF) ∧
    getIndex asciiLex (exRunF exHistF) "50-00-0".toList = some 3 ∧
    getIndex asciiLex (exRunF exHistF) "000050-00-0".toList = some 0 ∧
    casOf asciiLex (exRunF exHistF) "000050-00-0".toList = some none ∧
    synonymsFor asciiLex (exRunF exHistF) "000050-00-0".toList = none :=
  ⟨exReachF, by decide +kernel, by decide +kernel, by decide +kernel, by decide +kernel⟩

/-- C15 fails: a merge one of whose arguments names a flowable merged away raises half-way, without
recording the CAS number it has moved; the dominant flowable then accepts a second CAS number. -/
theorem C15_fails_two :
    let ops := exHistF ++ [.addTerm "spirit".toList,
      .merge "spirit".toList ["64-17-5".toList, "000050-00-0".toList], .addSynonym 4 "7-77-7".toList]
    getIndex asciiLex (exRunF ops) "64-17-5".toList = some 4 ∧
    getIndex asciiLex (exRunF ops) "7-77-7".toList = some 4 ∧
    synonymsFor asciiLex (exRunF ops) "spirit".toList = some
      ["spirit".toList, "64-17-5".toList, " 000064-17-5 ".toList, "7-77-7".toList] := by decide +kernel

/-- C15 fails: a synonym rejected with TermFound leaves its CAS number recorded for the wrong flowable, to
which no CAS number resolves. -/
theorem C15_fails_polluted :
    let ops := [Op.addTerm "a".toList, .addTerm "64-17-5".toList, .addSynonym 0 "0064-17-5".toList]
    casOf asciiLex (exRunF ops) "a".toList = some (some "000064-17-5".toList) ∧
    getIndex asciiLex (exRunF ops) "64-17-5".toList = some 1 := by decide +kernel

/-! ### C14, resolution -/

/-- states reached without merging -/
inductive ReachNoMerge (L : Lex Str) : State Str → Prop
  | init : ReachNoMerge L {}
  | call {s : State Str} (op : Op Str) (o : PyOrd Str) (oN : PyOrd ℕ) : ReachNoMerge L s →
      (∀ d ts, op ≠ .merge d ts) → ReachNoMerge L (stepF L o oN op s).2

/-- the trimmed and padded forms are known together -/
def Both (d : Dict Str ℕ) : Prop := ∀ c p, pad c = some p → c.getLast? ≠ some '\n' → d.get? p = d.get? (trim c)

theorem pad_isCas {c p : Str} (h : pad c = some p) : isCas c = true := by
  unfold pad at h
  split at h
  · assumption
  · simp at h

theorem pad_pad {c p : Str} (h : pad c = some p) : pad p = some p := ((C14_pad_trim c).2.1 p h).2.2.1

theorem both_newTermF {L : Lex Str} (hL : FLaw L) {s : State Str} (h : Both s.dict) (t : Str) (index : ℕ) :
    Both (newTermF L t index s).state.dict := by
  have hfin : ∀ (t k : Str) (s : State Str), (finish t k index s).state.dict = s.dict ∨
      (finish t k index s).state.dict = s.dict.set k index := by
    intro t k s
    unfold finish
    split
    · left; rfl
    · left; rfl
    · simp only
      split
      · right; rfl
      · split <;> exact Or.inr rfl
      · right; rfl
  unfold newTermF
  split
  · exact h
  · simp only
    split
    · split <;> exact h
    · split
      · rename_i hc
        split
        · exact h
        · split
          · exact h
          · split
            · exact h
            · rename_i k hk
              have htk := pad_trim hk
              have hsan := san_trim hL hc hk
              -- the inherited _new_term
              cases hr : newTerm L (trim k) index { s with cas := s.cas.set index (some k) } with
              | err e s2 =>
                have : s2.dict = s.dict := by
                  unfold newTerm at hr
                  split at hr
                  · simp at hr
                  · simp only at hr
                    split at hr
                    · simp at hr; rw [← hr.2]
                    · simp at hr; rw [← hr.2]
                    · split at hr
                      · split at hr
                        · simp at hr
                        · simp at hr; rw [← hr.2]
                      · split at hr <;> simp at hr
                simp only [Out.bind, Out.state, this]; exact h
              | ok u s2 =>
                -- afterwards both forms are mapped to the index
                have h2 : (s2.dict = s.dict ∧ s.dict.get? (trim (L.san t)) = some index) ∨
                    s2.dict = s.dict.set (trim (L.san t)) index := by
                  unfold newTerm at hr
                  split at hr
                  · rename_i hb
                    exfalso
                    rw [hL.blank, htk] at hb
                    exact (trim_ne_nil hc).1 hb
                  · simp only at hr
                    split at hr
                    · simp at hr
                    · simp at hr
                    · split at hr
                      · rename_i j hj
                        split at hr
                        · rename_i e
                          simp at hr
                          left
                          rw [← hr]
                          refine ⟨rfl, ?_⟩
                          rw [hsan] at hj
                          rw [hj, e]
                        · simp at hr
                      · right
                        rw [hsan] at hr
                        split at hr <;> (simp at hr; rw [← hr])
                simp only [Out.bind]
                have hlive : ∃ l, s2.items[index]? = some (some l) := by
                  unfold newTerm at hr
                  split at hr
                  · rename_i hb
                    exfalso
                    rw [hL.blank, htk] at hb
                    exact (trim_ne_nil hc).1 hb
                  · simp only at hr
                    split at hr
                    · simp at hr
                    · simp at hr
                    · rename_i l hl
                      have hlt := (List.getElem?_eq_some_iff.mp hl).1
                      have hit : s2.items = s.items.set index (some (PySet.add l (trim k))) := by
                        split at hr
                        · split at hr
                          · simp at hr; rw [← hr]
                          · simp at hr
                        · split at hr <;> (simp at hr; rw [← hr])
                      exact ⟨_, by rw [hit, List.getElem?_set]; simp [hlt]; rfl⟩
                obtain ⟨l2, hl2⟩ := hlive
                have hfd : (finish t k index s2).state.dict = s2.dict.set k index := by
                  unfold finish
                  rw [hl2]
                  simp only
                  split
                  · rfl
                  · split <;> rfl
                  · rfl
                rw [hfd]
                have hg2 : s2.dict.get? (trim (L.san t)) = some index := by
                  rcases h2 with ⟨e1, e2⟩ | e
                  · rw [e1, e2]
                  · rw [e, Dict.get?_set]; simp
                have hg3 : ∀ x, x ≠ trim (L.san t) → s2.dict.get? x = s.dict.get? x := by
                  intro x hx
                  rcases h2 with ⟨e1, e2⟩ | e
                  · rw [e1]
                  · rw [e, Dict.get?_set, if_neg (Ne.symm hx)]
                intro c p hp hnl
                rw [Dict.get?_set, Dict.get?_set]
                have hpt := pad_trim hp
                by_cases e : k = p
                · -- the same number
                  subst e
                  rw [if_pos rfl]
                  split
                  · rfl
                  · rw [← hpt, htk, hg2]
                · rw [if_neg e]
                  have hne : trim c ≠ trim (L.san t) := by
                    intro e'
                    apply e
                    have h3 := (C14_same_number ((isCas_iff _).mp hc) ((isCas_iff _).mp (pad_isCas hp))).mpr e'.symm
                    rw [hk, hp] at h3
                    simpa using h3
                  have hne2 : p ≠ trim (L.san t) := by
                    intro e'
                    apply hne
                    rw [← hpt, e', trim_idem]
                  have hne3 : k ≠ trim c := by
                    intro e'
                    apply hne
                    rw [← trim_idem c, ← e', htk]
                  rw [if_neg hne3, hg3 p hne2, hg3 _ hne]
                  exact h c p hp hnl
      · rename_i hc
        rcases hfin t (L.san t) s with e | e
        · rw [e]; exact h
        · rw [e]
          intro c p hp hnl
          rw [Dict.get?_set, Dict.get?_set, if_neg, if_neg]
          · exact h c p hp hnl
          · intro e'
            apply hc; rw [e']
            exact (trim_ne_nil (pad_isCas hp)).2
          · intro e'
            apply hc; rw [e']
            exact pad_isCas (pad_pad hp)

theorem both_mergeSet {L : Lex Str} (hL : FLaw L) {s : State Str} (h : Both s.dict) (ts : List Str) (index : ℕ) :
    Both (mergeSet (newTermF L) ts index s).state.dict := by
  induction ts generalizing s with
  | nil => exact h
  | cons t ts ih =>
    unfold mergeSet
    have h1 := both_newTermF hL h t index
    cases hr : newTermF L t index s with
    | err e s2 => rw [hr] at h1; exact h1
    | ok u s2 => rw [hr] at h1; exact ih h1

theorem both_mergeSetF {L : Lex Str} (hL : FLaw L) {s : State Str} (h : Both s.dict) (ts : List Str) (index : ℕ) :
    Both (mergeSetF L ts index s).state.dict := by
  unfold mergeSetF
  split
  · exact h
  · exact both_mergeSet hL h ts index
  · split
    · exact h
    · split
      · exact h
      · exact both_mergeSet hL h ts index

theorem both_newSet {L : Lex Str} (hL : FLaw L) {s : State Str} (h : Both s.dict) (it : List Str) :
    Both (newSet L (mergeSetF L) it s).state.dict := by
  unfold newSet
  simp only
  split
  · exact h
  · rw [bind_state _ (fun _ => some (newItem s).1)]
    exact both_mergeSetF hL (s := (newItem s).2) h _ _

/-- C14 (partial), resolution: after any history without merges, calls that raise included, the padded and the
trimmed form of every CAS number resolve to the same flowable, or neither is known.
Missing: histories with merges, see `C15_fails_dead`; intermediate forms such as '0050-00-0' are never looked
up under their canonical form, see `C14_fails_intermediate`. -/
theorem C14_resolve_partial {L : Lex Str} (hL : FLaw L) {s : State Str} (h : ReachNoMerge L s) {c p : Str}
    (hp : pad c = some p) (hnl : c.getLast? ≠ some '\n') : getIndex L s p = getIndex L s (trim c) := by
  have hb : Both s.dict := by
    clear hp hnl
    induction h with
    | init => intro c p _ _; rfl
    | @call s op o oN _ hs ih =>
      cases op with
      | addTerm t =>
        simp only [stepF, addTerm]
        split
        · exact ih
        · rw [bind_state _ (fun _ => (newItem s).1)]
          exact both_newTermF hL (s := (newItem s).2) ih _ _
      | addSet l m =>
        simp only [stepF, addSet]
        split
        · exact both_newSet hL ih _
        · exact both_newSet hL ih _
        · rename_i index _
          rw [bind_state _ (fun _ => some index)]
          exact both_mergeSetF hL ih _ _
        · exact ih
      | addSynonym i t => exact both_newTermF hL ih t i
      | setName t =>
        simp only [stepF, setName]
        split <;> exact ih
      | merge d ts => exact absurd rfl (hs d ts)
      | splitTerm t =>
        obtain ⟨items', names', h1, _, _⟩ := splitTerm_state (L := L) (ma := matchesF L) (ms := mergeSetF L)
          (s := s) (t := t) o (fun mts hm => matchesF_known hm)
        simp only [stepF]
        rw [h1]; exact ih
  have hc := pad_isCas hp
  obtain ⟨h1, h2⟩ := trim_ne_nil hc
  have hpt := pad_trim hp
  have hplast : p.getLast? = c.getLast? := by
    rw [← trim_last (k := p) (by rw [hpt]; exact h1), hpt, trim_last h1]
  unfold getIndex
  rw [hL.fix p (pad_isCas (pad_pad hp)) (by rw [hplast]; exact hnl),
    hL.fix (trim c) h2 (by rw [trim_last h1]; exact hnl)]
  exact hb c p hp hnl

/-- a merge-free history with a rejected call -/
example : ReachNoMerge asciiLex (exRunF [.addSet ["Formaldehyde".toList, "50-00-0".toList] false,
    .addSynonym 0 "64-17-5".toList]) ∧ pad "050-00-0".toList = some "000050-00-0".toList ∧
    getIndex asciiLex (exRunF [.addSet ["Formaldehyde".toList, "50-00-0".toList] false,
      .addSynonym 0 "64-17-5".toList]) "000050-00-0".toList = some 0 := by
  refine ⟨?_, by decide +kernel, by decide +kernel⟩
  exact .call _ (PyOrd.id _) (PyOrd.id _) (.call _ (PyOrd.id _) (PyOrd.id _) .init (by simp)) (by simp)

/-- C14 fails for partially padded forms: the form that was added is listed as a synonym and yet unknown. -/
theorem C14_fails_intermediate :
    let s := exRunF [.addTerm "0050-00-0".toList]
    synonymsFor asciiLex s "50-00-0".toList = some ["50-00-0".toList, "0050-00-0".toList] ∧
    getIndex asciiLex s "0050-00-0".toList = none := by decide +kernel

end Flw
