import Verif.Lemmas.SynList
import Verif.Spec.SynList

/-! Properties C10, C11, C12, C13 of SynList. -/

set_option linter.unusedSectionVars false

namespace Syn
variable {T : Type} [DecidableEq T] {L : Lex T}

/-- characters as terms, looked up ignoring case, with '_' as the empty term -/
def exL : Lex Char := ⟨Char.toLower, '_'⟩
/-- a set iteration order -/
abbrev ido : PyOrd Char := PyOrd.id Char
/-- an index set iteration order -/
abbrev idn : PyOrd ℕ := PyOrd.id ℕ
/-- run calls on the empty list -/
def exRun (ops : List (Op Char)) : State Char := ops.foldl (fun s op => (step exL ido idn op s).2) {}

/-! ### split_term never changes the lookup -/

theorem newSet_known {ms : List T → ℕ → State T → Out (State T) Err Unit} {it : List T} {s : State T}
    (h : ∀ t ∈ it, (getIndex L s t).isSome) : newSet L ms it s = .ok none s := by
  unfold newSet
  have : it.filter (fun t => (getIndex L s t).isNone) = [] := by
    rw [List.filter_eq_nil_iff]
    intro t ht
    have := h t ht
    cases hg : getIndex L s t <;> simp_all
  simp [this]

theorem splitTerm_cases (o : PyOrd T) (t : T) (s : State T) :
    (∃ e, splitTerm L o (matchesOf L) (mergeSet (newTerm L)) t s = .err e s) ∨
    ∃ i l mts, getIndex L s t = some i ∧ s.items[i]? = some (some l) ∧
      mts = l.filter (fun k => decide (L.san k = L.san t)) ∧
      (∀ n, s.names[i]? = some (some n) → n ∉ mts) ∧
      splitTerm L o (matchesOf L) (mergeSet (newTerm L)) t s = .ok none
        { s with
          items := s.items.modify i fun x => x.map fun l => l.filter fun k => decide (k ∉ mts),
          names := s.names.set i (some t) } := by
  unfold splitTerm
  cases hm : matchesOf L t s with
  | error e => left; exact ⟨e, rfl⟩
  | ok mts =>
    right
    unfold matchesOf at hm
    cases hg : getIndex L s t with
    | none => rw [hg] at hm; simp at hm
    | some i =>
      rw [hg] at hm
      simp only at hm
      cases hl : s.items[i]? with
      | none => rw [hl] at hm; simp at hm
      | some x =>
        cases x with
        | none => rw [hl] at hm; simp at hm
        | some l =>
          rw [hl] at hm
          simp only at hm
          have hmts : mts = l.filter (fun k => decide (L.san k = L.san t)) ∧
              (∀ n, s.names[i]? = some (some n) → n ∉ mts) := by
            cases hn : s.names[i]? with
            | none => rw [hn] at hm; simp at hm; exact ⟨hm.symm, by simp⟩
            | some y =>
              cases y with
              | none => rw [hn] at hm; simp at hm; exact ⟨hm.symm, by simp⟩
              | some n =>
                rw [hn] at hm
                simp only at hm
                split at hm
                · simp at hm
                · rename_i hnot
                  simp only [Except.ok.injEq] at hm
                  subst hm
                  refine ⟨rfl, ?_⟩
                  intro n' hn'
                  simp only [Option.some.injEq] at hn'
                  subst hn'
                  exact hnot
          refine ⟨i, l, mts, rfl, hl, hmts.1, hmts.2, ?_⟩
          simp only
          rw [newSet_known (by
            intro k hk
            rw [o.mem, hmts.1, List.mem_filter] at hk
            have : L.san k = L.san t := by simpa using hk.2
            unfold getIndex
            simp only
            rw [this]
            unfold getIndex at hg
            rw [hg]; rfl)]
          simp only [Out.bind, setName]
          have : getIndex L { s with items := s.items.modify i fun x => x.map fun l => l.filter fun k => decide (k ∉ mts) } t = some i := hg
          rw [this]

/-! ### C10 -/

theorem reach_inv {s : State T} (h : Reach L s) : Inv L s := by
  induction h with
  | init => exact inv_init
  | @call s op o oN _ hs ih =>
    cases op with
    | addTerm t =>
      obtain ⟨r, s', h1, h2⟩ := addTerm_ok ih t
      simp only [step, h1, Out.state]; exact h2
    | addSet l m =>
      rcases addSet_ok ih o l m with ⟨r, s', h1, h2⟩ | h1
      · simp only [step, h1, Out.state]; exact h2
      · simp only [step, h1, Out.state]; exact ih
    | setName t =>
      rcases setName_ok ih t with ⟨i, h1, _, h2⟩ | h1
      · simp only [step, h1, Out.state]; exact h2
      · simp only [step, h1, Out.state]; exact ih
    | addSynonym i t =>
      simp only [step]
      simp only [Sound] at hs
      by_cases hb : t = L.blank
      · have : addSynonym L i t s = .ok () s := by simp [addSynonym, newTerm, hb]
        rw [this]; exact ih
      · cases hl : s.items[i]? with
        | none =>
          have : addSynonym L i t s = .err .indexError s := by simp [addSynonym, newTerm, hb, hl]
          rw [this]; exact ih
        | some x =>
          cases x with
          | none =>
            have : addSynonym L i t s = .err .attributeError s := by simp [addSynonym, newTerm, hb, hl]
            rw [this]; exact ih
          | some l =>
            have hk : s.dict.get? (L.san t) = none ∨ s.dict.get? (L.san t) = some i := by
              cases hd : s.dict.get? (L.san t) with
              | none => left; rfl
              | some j =>
                by_cases e : j = i
                · right; rw [e]
                · exfalso; apply hs
                  simp [addSynonym, newTerm, hb, hl, hd, e, Out.error?]
            obtain ⟨s', h1, h2, _⟩ := newTerm_ok ih hl hk
            simp only [addSynonym, h1, Out.state]; exact h2
    | merge d ts =>
      simp only [step]
      simp only [Sound] at hs
      cases hd : getIndex L s d with
      | none =>
        have : merge L o oN d ts s = .err .keyError s := by simp [merge, hd]
        rw [this]; exact ih
      | some into =>
        by_cases hts : ∀ t ∈ ts, ∃ i, getIndex L s t = some i
        · obtain ⟨s', h1, h2, _⟩ := merge_ok ih o oN hd hts (by
            intro t ht
            obtain ⟨i, hi⟩ := hts t ht
            rcases hs t ht with h' | h'
            · rw [hi] at h'; simp at h'
            · rw [hd] at h'; exact h')
          rw [h1]; exact h2
        · have : merge L o oN d ts s = .err .keyError s := by
            have hn : ts.mapM (getIndex L s) = none := by
              cases hm : ts.mapM (getIndex L s) with
              | none => rfl
              | some r =>
                exfalso; apply hts
                clear hts hs
                induction ts generalizing r with
                | nil => simp
                | cons a l ih' =>
                  rw [List.mapM_cons] at hm
                  cases ha : getIndex L s a with
                  | none => rw [ha] at hm; simp at hm
                  | some x =>
                    cases hl : l.mapM (getIndex L s) with
                    | none => rw [ha, hl] at hm; simp at hm
                    | some y =>
                      intro t ht
                      rcases List.mem_cons.mp ht with e | ht
                      · subst e; exact ⟨x, ha⟩
                      · exact ih' y hl t ht
            simp [merge, hd, hn]
          rw [this]; exact ih
    | splitTerm t =>
      simp only [Sound] at hs
      obtain ⟨o', hs⟩ := hs
      simp only [step]
      have hm : ∃ e, matchesOf L t s = .error e := by
        rcases splitTerm_cases (L := L) o' t s with ⟨e, he⟩ | ⟨i, l, mts, _, _, _, _, he⟩
        · cases hmm : matchesOf L t s with
          | error e => exact ⟨e, rfl⟩
          | ok mts =>
            exfalso
            unfold splitTerm at he
            rw [hmm] at he
            rcases splitTerm_cases (L := L) o' t s with ⟨e', he'⟩ | ⟨i, l, mts', hg, hl, e1, e2, he'⟩
            · -- matches succeeded, so the call returns
              unfold matchesOf at hmm
              cases hg : getIndex L s t with
              | none => rw [hg] at hmm; simp at hmm
              | some i =>
                rw [hg] at he hmm
                simp only at he hmm
                have hmt : ∀ k ∈ mts, L.san k = L.san t := by
                  cases hl : s.items[i]? with
                  | none => rw [hl] at hmm; simp at hmm
                  | some x =>
                    cases x with
                    | none => rw [hl] at hmm; simp at hmm
                    | some l =>
                      rw [hl] at hmm
                      simp only at hmm
                      have : mts = l.filter (fun k => decide (L.san k = L.san t)) := by
                        cases hn : s.names[i]? with
                        | none => rw [hn] at hmm; simp at hmm; exact hmm.symm
                        | some y =>
                          cases y with
                          | none => rw [hn] at hmm; simp at hmm; exact hmm.symm
                          | some n =>
                            rw [hn] at hmm; simp only at hmm
                            split at hmm
                            · simp at hmm
                            · simp only [Except.ok.injEq] at hmm; exact hmm.symm
                      intro k hk
                      rw [this, List.mem_filter] at hk
                      simpa using hk.2
                rw [newSet_known (by
                  intro k hk
                  rw [o'.mem] at hk
                  unfold getIndex
                  simp only
                  rw [hmt k hk]
                  unfold getIndex at hg
                  rw [hg]; rfl)] at he
                simp only [Out.bind, setName] at he
                have : getIndex L { s with items := s.items.modify i fun x => x.map fun l => l.filter fun k => decide (k ∉ mts) } t = some i := hg
                rw [this] at he
                simp at he
            · rw [he'] at hs; simp [Out.error?] at hs
        · rw [he] at hs; simp [Out.error?] at hs
      obtain ⟨e, he⟩ := hm
      have : splitTerm L o (matchesOf L) (mergeSet (newTerm L)) t s = .err e s := by
        unfold splitTerm; rw [he]
      rw [this]; exact ih

/-- C10 (partial). In every state reached by sound calls, whatever the set iteration orders:
(1) a term known to the list resolves to an index with a live item that lists it, up to sanitizing;
(2) every term listed for an index resolves to that index, so items list disjoint synonyms;
(3) no two distinct items list terms that are equal up to sanitizing;
(4) the canonical name of an item resolves to it.
Missing: calls that raise TermFound from add_synonym, self-merges and split_term; for these
`C10_fails_*` show that the claim is false. -/
theorem C10_partial {s : State T} (h : Reach L s) :
    (∀ t i, getIndex L s t = some i → ∃ l, s.items[i]? = some (some l) ∧ synonymsFor L s t = some l ∧
        ∃ t' ∈ l, L.san t' = L.san t) ∧
    (∀ (i : ℕ) l, s.items[i]? = some (some l) → l.Nodup ∧ ∀ t ∈ l, getIndex L s t = some i) ∧
    (∀ (i j : ℕ) li lj, s.items[i]? = some (some li) → s.items[j]? = some (some lj) → i ≠ j →
        ∀ a ∈ li, ∀ b ∈ lj, L.san a ≠ L.san b) ∧
    (∀ (i : ℕ) n, s.names[i]? = some (some n) → getIndex L s n = some i) := by
  have hI := reach_inv h
  refine ⟨?_, ?_, ?_, hI.name⟩
  · intro t i ht
    obtain ⟨l, h1, t', ht', e⟩ := hI.live _ _ ht
    refine ⟨l, h1, ?_, t', ht', e⟩
    simp [synonymsFor, ht, h1]
  · intro i l hl
    exact ⟨hI.nodup i l hl, hI.listed i l hl⟩
  · intro i j li lj hi hj hij a ha b hb e
    have h1 := hI.listed i li hi a ha
    have h2 := hI.listed j lj hj b hb
    rw [e, h2] at h1
    simp at h1; exact hij h1.symm

/-- a history with a merge, a renaming, a repeated set, a rejected set and a rejected split -/
def exHist : List (Op Char) :=
  [.addSet ['a', 'b', 'B'] false, .addTerm 'c', .addSet ['d', 'C', 'e'] true, .merge 'a' ['C'], .setName 'd',
   .addSet ['x', 'y'] false, .addSet ['x', 'a', 'q'] true, .addSynonym 2 'Z', .addSynonym 1 'Z', .splitTerm 'd']

/-- The history is sound, so `C10_partial` applies to its final state, which has a live merged item,
a dead item and a second live item. -/
theorem exReach : Reach exL (exRun exHist) := by
  have call : ∀ {ops : List (Op Char)} {op}, Reach exL (exRun ops) → Sound exL (exRun ops) op →
      Reach exL (exRun (ops ++ [op])) := by
    intro ops op h hs
    have : exRun (ops ++ [op]) = (step exL ido idn op (exRun ops)).2 := by
      simp [exRun, List.foldl_append]
    rw [this]; exact .call op ido idn h hs
  have h0 : Reach exL (exRun []) := .init
  have h1 := call (op := .addSet ['a', 'b', 'B'] false) h0 trivial
  have h2 := call (op := .addTerm 'c') h1 trivial
  have h3 := call (op := .addSet ['d', 'C', 'e'] true) h2 trivial
  have h4 := call (op := .merge 'a' ['C']) h3 (by unfold Sound; decide +kernel)
  have h5 := call (op := .setName 'd') h4 trivial
  have h6 := call (op := .addSet ['x', 'y'] false) h5 trivial
  have h7 := call (op := .addSet ['x', 'a', 'q'] true) h6 trivial
  have h8 := call (op := .addSynonym 2 'Z') h7 (by unfold Sound; decide +kernel)
  have h9 := call (op := .addSynonym 1 'Z') h8 (by unfold Sound; decide +kernel)
  exact call (op := .splitTerm 'd') h9 ⟨ido, by decide +kernel⟩

example : (exRun exHist).items = [some ['a', 'b', 'B', 'c', 'd', 'e'], none, some ['x', 'y', 'Z']] ∧
    (exRun exHist).names = [some 'd', none, some 'x'] := by decide +kernel

/-- C10 fails: `add_synonym` of a term that belongs to another item raises TermFound but leaves the term
listed for both items. -/
theorem C10_fails_addSynonym : ∃ ops : List (Op Char), ∃ a ∈ synonymsFor exL (exRun ops) 'a', 'b' ∈ a ∧
    getIndex exL (exRun ops) 'a' ≠ getIndex exL (exRun ops) 'b' ∧
    (step exL ido idn (.addSynonym 0 'b') (exRun [.addTerm 'a', .addTerm 'b'])).1 = some .termFound ∧
    exRun ops = (step exL ido idn (.addSynonym 0 'b') (exRun [.addTerm 'a', .addTerm 'b'])).2 :=
  ⟨[.addTerm 'a', .addTerm 'b', .addSynonym 0 'b'], ['a', 'b'], by decide +kernel, by decide +kernel,
    by decide +kernel, by decide +kernel, by decide +kernel⟩

/-- C10 fails: merging an item into itself returns normally, and afterwards the terms still resolve, to an
item that lists no synonyms at all (synonyms_for returns None). -/
theorem C10_fails_selfMerge :
    (step exL ido idn (.merge 'a' ['b']) (exRun [.addSet ['a', 'b'] false])).1 = none ∧
    (let s := (step exL ido idn (.merge 'a' ['b']) (exRun [.addSet ['a', 'b'] false])).2
     getIndex exL s 'a' = some 0 ∧ getIndex exL s 'b' = some 0 ∧ synonymsFor exL s 'a' = none) := by decide +kernel

/-! ### C11 -/

/-- C11 (partial). Let a sound history lead to `s`. If all arguments of `merge` are known and none of them
names the dominant item, then `merge` returns and afterwards: a term resolves to the dominant item iff it
resolved to it or to a merged item; every other term resolves as before; no known term becomes unknown; the
synonyms of the dominant item are the union of the old ones; the dominant item keeps its name. Terms may name
the same item repeatedly.
Missing: the dominant item among the merged ones, see `C10_fails_selfMerge`. -/
theorem C11_partial {s : State T} (h : Reach L s) (o : PyOrd T) (oN : PyOrd ℕ) {d : T} {ts : List T} {into : ℕ}
    (hd : getIndex L s d = some into) (hts : ∀ t ∈ ts, ∃ i, getIndex L s t = some i)
    (hne : ∀ t ∈ ts, getIndex L s t ≠ getIndex L s d) :
    ∃ s', merge L o oN d ts s = .ok () s' ∧
      (∀ x, getIndex L s' x = some into ↔
        getIndex L s x = some into ∨ ∃ t ∈ ts, getIndex L s x = getIndex L s t) ∧
      (∀ x, (∀ t ∈ ts, getIndex L s x ≠ getIndex L s t) → getIndex L s' x = getIndex L s x) ∧
      (∀ x, (getIndex L s x).isSome → (getIndex L s' x).isSome) ∧
      (∃ l, synonymsFor L s' d = some l ∧ ∀ x, x ∈ l ↔
        (∃ l0, synonymsFor L s d = some l0 ∧ x ∈ l0) ∨
          ∃ t ∈ ts, ∃ lt, synonymsFor L s t = some lt ∧ x ∈ lt) ∧
      nameOf L s' d = nameOf L s d := by
  have hI := reach_inv h
  obtain ⟨s', h1, _, ⟨l, hl, hlm⟩, h3, _, h5⟩ := merge_ok hI o oN hd hts (by
    intro t ht; rw [← hd]; exact hne t ht)
  have hself : getIndex L s' d = some into := by
    rw [h3, if_neg, hd]
    rintro ⟨t, ht, e⟩; exact hne t ht e.symm
  refine ⟨s', h1, ?_, ?_, ?_, ⟨l, ?_, ?_⟩, ?_⟩
  · intro x
    rw [h3]
    split
    · rename_i hx; simp [hx]
    · rename_i hx; simp [hx]
  · intro x hx
    rw [h3, if_neg]
    rintro ⟨t, ht, e⟩; exact hx t ht e
  · intro x hx
    rw [h3]; split
    · rfl
    · exact hx
  · simp [synonymsFor, hself, hl]
  · intro x
    rw [hlm]
    constructor
    · rintro ⟨i, lx, e | ⟨t, ht, e⟩, hlx, hx⟩
      · subst e; left; exact ⟨lx, by simp [synonymsFor, hd, hlx], hx⟩
      · right; exact ⟨t, ht, lx, by simp [synonymsFor, e, hlx], hx⟩
    · rintro (⟨l0, h0, hx⟩ | ⟨t, ht, lt, h0, hx⟩)
      · refine ⟨into, l0, Or.inl rfl, ?_, hx⟩
        simp only [synonymsFor, hd] at h0
        exact Option.join_eq_some_iff.mp h0
      · obtain ⟨i, hi⟩ := hts t ht
        refine ⟨i, lt, Or.inr ⟨t, ht, hi⟩, ?_, hx⟩
        simp only [synonymsFor, hi] at h0
        exact Option.join_eq_some_iff.mp h0
  · unfold nameOf
    rw [hself, hd]
    simp only
    exact h5 into (by intro t ht; rw [← hd]; exact hne t ht)

/-- the hypotheses of `C11_partial` hold in a state with three items, two of them merged into the third -/
example : Reach exL (exRun (exHist ++ [.addSet ['m', 'n'] false])) ∧
    getIndex exL (exRun (exHist ++ [.addSet ['m', 'n'] false])) 'y' = some 2 ∧
    (∀ t ∈ ['A', 'm', 'N'], ∃ i, getIndex exL (exRun (exHist ++ [.addSet ['m', 'n'] false])) t = some i) ∧
    (∀ t ∈ ['A', 'm', 'N'], getIndex exL (exRun (exHist ++ [.addSet ['m', 'n'] false])) t ≠
      getIndex exL (exRun (exHist ++ [.addSet ['m', 'n'] false])) 'y') := by
  refine ⟨?_, by decide +kernel, ?_, by decide +kernel⟩
  · have : exRun (exHist ++ [.addSet ['m', 'n'] false]) =
        (step exL ido idn (.addSet ['m', 'n'] false) (exRun exHist)).2 := by simp [exRun, List.foldl_append]
    rw [this]; exact .call _ ido idn exReach trivial
  · intro t ht
    simp at ht
    rcases ht with rfl | rfl | rfl
    · exact ⟨0, by decide +kernel⟩
    · exact ⟨3, by decide +kernel⟩
    · exact ⟨3, by decide +kernel⟩

/-! ### C12 -/

/-- C12 (partial). In any state at all, when `split_term` raises nothing has changed; when it returns, every
term still resolves to the index it resolved to, all other items are untouched, and the terms of the item
that do not match the split term are still listed for it.
Missing: the split-off terms do not get an item of their own, and the item they were taken from loses its
name: see `C12_fails`. -/
theorem C12_partial (o : PyOrd T) (t : T) (s : State T) :
    (∃ e, splitTerm L o (matchesOf L) (mergeSet (newTerm L)) t s = .err e s) ∨
    ∃ s', splitTerm L o (matchesOf L) (mergeSet (newTerm L)) t s = .ok none s' ∧
      (∀ x, getIndex L s' x = getIndex L s x) ∧
      (∀ x, getIndex L s x ≠ getIndex L s t →
        synonymsFor L s' x = synonymsFor L s x ∧ nameOf L s' x = nameOf L s x) ∧
      (∃ l l', synonymsFor L s t = some l ∧ synonymsFor L s' t = some l' ∧
        ∀ x, x ∈ l' ↔ x ∈ l ∧ L.san x ≠ L.san t) := by
  rcases splitTerm_cases (L := L) o t s with h | ⟨i, l, mts, hg, hl, hm, hn, h⟩
  · exact Or.inl h
  · right
    refine ⟨_, h, fun x => rfl, ?_, ⟨l, l.filter (fun k => decide (k ∉ mts)), ?_, ?_, ?_⟩⟩
    · intro x hx
      cases hgx : getIndex L s x with
      | none => simp [synonymsFor, nameOf, getIndex] at hgx ⊢; rw [hgx]; simp
      | some j =>
        have hij : i ≠ j := by intro e; rw [hg, hgx, e] at hx; exact hx rfl
        simp only [getIndex] at hgx
        constructor
        · simp [synonymsFor, getIndex, hgx, List.getElem?_modify, hij]
        · simp [nameOf, getIndex, hgx, List.getElem?_set, hij]
    · simp [synonymsFor, hg, hl]
    · simp only [getIndex] at hg
      simp [synonymsFor, getIndex, hg, List.getElem?_modify, hl]
    · intro x
      subst hm
      simp [List.mem_filter]
      tauto

/-- C12 fails in every state in which `split_term` returns: it returns None, the term still resolves to the
item it was split from, no longer appears among that item's synonyms, and replaces its canonical name. -/
theorem C12_fails (o : PyOrd T) (t : T) (s : State T) {r : Option ℕ} {s' : State T}
    (hlen : s.names.length = s.items.length)
    (h : splitTerm L o (matchesOf L) (mergeSet (newTerm L)) t s = .ok r s') :
    r = none ∧ getIndex L s' t = getIndex L s t ∧ (∃ l, synonymsFor L s' t = some l ∧ t ∉ l) ∧
      nameOf L s' t = some (some t) := by
  rcases splitTerm_cases (L := L) o t s with ⟨e, h'⟩ | ⟨i, l, mts, hg, hl, hm, hn, h'⟩
  · rw [h'] at h; simp at h
  · rw [h'] at h
    simp only [Out.ok.injEq] at h
    obtain ⟨h1, h2⟩ := h
    subst h1 h2
    have hlt : i < s.names.length := by rw [hlen]; exact (List.getElem?_eq_some_iff.mp hl).1
    simp only [getIndex] at hg
    refine ⟨rfl, rfl, ⟨l.filter (fun k => decide (k ∉ mts)), ?_, ?_⟩, ?_⟩
    · simp [synonymsFor, getIndex, hg, List.getElem?_modify, hl]
    · subst hm; simp [List.mem_filter]
    · simp [nameOf, getIndex, hg, hlt]

/-- `split_term` does return on a reachable state -/
example : (splitTerm exL ido (matchesOf exL) (mergeSet (newTerm exL)) 'B' (exRun exHist)).error? = none ∧
    (exRun exHist).names.length = (exRun exHist).items.length ∧
    synonymsFor exL (exRun (exHist ++ [.splitTerm 'B'])) 'b' = some ['a', 'c', 'd', 'e'] := by decide +kernel

end Syn
