import Verif.Model.LciaTables
import Verif.Props.CasNumber

/-! C185, C186: loading TRACI, and asking it for factors. -/

namespace Ltab

section
variable {Col Cat : Type} [DecidableEq Col] [DecidableEq Cat]

/-! ### Specification -/

/-- the factor in a column of a row: a number that is not zero -/
def cell (r : Row Col) (c : Col) : Option ℚ := (Dict.get? r.cells c).bind fun v => v.bind fun x => if x = 0 then none else some x

/-- the factors the table lists for a substance (by the name in lower case), a compartment and a category: row by row -/
def hits (lower : Str → Str) (qi : List (QInfo Col Cat)) (rows : List (Row Col)) (name comp : Str) (cat : Cat) : List ℚ :=
  (rows.filter fun r => decide (lower r.name = name)).flatMap fun r =>
    (qi.filter fun i => decide (i.cat = cat ∧ i.comp = comp)).filterMap fun i => cell r i.col

/-- the factor of a flow in the archive -/
def held (a : Arch Cat) (name comp : Str) (cat : Cat) : Option ℚ :=
  (Dict.get? a (flowKey name comp)).bind fun f => Dict.get? f.cfs cat

/-- compartments hold no comma -/
def Plain (qi : List (QInfo Col Cat)) : Prop := ∀ i ∈ qi, ',' ∉ i.comp

/-! ### Keys -/

/-- **C185**: keys of flows are different unless name and compartment are the same, for compartments without a comma. -/
theorem flow_key_injective (n c n' c' : Str) (h : ',' ∉ c) (h' : ',' ∉ c') (e : flowKey n c = flowKey n' c') :
    n = n' ∧ c = c' := by
  have key : ∀ n c : Str, ',' ∉ c → (flowKey n c).reverse.takeWhile (fun x => decide (x ≠ ',')) = c.reverse ++ [' '] := by
    intro n c h
    have e : (flowKey n c).reverse = (c.reverse ++ [' ']) ++ ',' :: n.reverse := by simp [flowKey]
    rw [e, List.takeWhile_append_of_pos]
    · simp
    · intro x hx
      simp only [List.mem_append, List.mem_reverse, List.mem_singleton] at hx
      simp only [decide_eq_true_eq]
      rintro rfl
      rcases hx with hx | hx
      · exact h hx
      · revert hx; decide
  have e1 := key n c h
  rw [e, key n' c' h'] at e1
  have hc : c = c' := by
    have := congrArg List.reverse e1
    simpa using this.symm
  subst hc
  exact ⟨List.append_cancel_right e, rfl⟩

example : flowKey "benzene, 1,2-dichloro-".toList "urban air".toList ≠ flowKey "benzene".toList "urban air".toList := by decide

/-! ### Loading -/

lemma createFlow_spec (lower : Str → Str) (row : Row Col) (comp : Str) (a : Arch Cat) :
    (∀ c, transformNumericCas row.fcas = .ok c → ∃ a', createFlow lower row comp a = .ok (flowKey (lower row.name) comp) a' ∧
        (∃ f, Dict.get? a' (flowKey (lower row.name) comp) = some f) ∧ (∀ n c t, held a' n c t = held a n c t) ∧
        (∀ k, (Dict.get? a' k).isSome ↔ (Dict.get? a k).isSome ∨ k = flowKey (lower row.name) comp) ∧
        (∀ k f, Dict.get? a' k = some f → Dict.get? a k = some f ∨
          k = flowKey (lower row.name) comp ∧ f = { name := lower row.name, comp := comp, cas := c })) ∧
    (∀ e, transformNumericCas row.fcas = .error e → createFlow lower row comp a = .err e a) := by
  constructor
  · intro c hc
    cases hg : Dict.get? a (flowKey (lower row.name) comp) with
    | some f =>
      refine ⟨a, by simp [createFlow, hc, hg], ⟨f, hg⟩, fun _ _ _ => rfl, ?_, fun k f h => Or.inl h⟩
      intro k
      constructor
      · exact Or.inl
      · rintro (h | rfl)
        · exact h
        · simp [hg]
    | none =>
      refine ⟨Dict.set a (flowKey (lower row.name) comp) { name := lower row.name, comp := comp, cas := c },
        by simp [createFlow, hc, hg], ⟨_, Dict.get?_set_self _ _ _⟩, ?_, ?_, ?_⟩
      · intro n c' t
        simp only [held]
        by_cases h : flowKey n c' = flowKey (lower row.name) comp
        · rw [h, Dict.get?_set_self, hg]; rfl
        · rw [Dict.get?_set_ne _ _ (Ne.symm h)]
      · intro k
        rw [Dict.get?_set]
        by_cases h : k = flowKey (lower row.name) comp
        · simp [h]
        · simp [h, Ne.symm h]
      · intro k f
        rw [Dict.get?_set]
        by_cases h : k = flowKey (lower row.name) comp
        · simp [h]; intro h; exact Or.inr h.symm
        · simp [Ne.symm h]; exact Or.inl
  · intro e he
    simp [createFlow, he]

/-- flows are stored under the key of their name and compartment -/
def Named (a : Arch Cat) : Prop := ∀ k f, Dict.get? a k = some f → k = flowKey f.name f.comp ∧ ',' ∉ f.comp

lemma addCf_spec (k : Str) (cat : Cat) (v : ℚ) (a : Arch Cat) (f : TFlow Cat) (hf : Dict.get? a k = some f) :
    (∀ n c t, held (addCf k cat v a) n c t =
      if flowKey n c = k ∧ t = cat then (held a n c t).or (some v) else held a n c t) ∧
    (∀ k', (Dict.get? (addCf k cat v a) k').isSome ↔ (Dict.get? a k').isSome) ∧
    (Named a → Named (addCf k cat v a)) := by
  cases hb : f.cfs.has cat with
  | true =>
    have e : addCf k cat v a = a := by simp [addCf, hf, hb]
    rw [e]
    refine ⟨?_, fun _ => Iff.rfl, id⟩
    intro n c t
    split
    · rename_i h
      have : held a n c t = Dict.get? f.cfs cat := by simp [held, h.1, hf, h.2]
      obtain ⟨w, hw⟩ := Option.isSome_iff_exists.1 (show (Dict.get? f.cfs cat).isSome by simpa [Dict.has] using hb)
      rw [this, hw]; rfl
    · rfl
  | false =>
    have e : addCf k cat v a = Dict.set a k { f with cfs := Dict.set f.cfs cat v } := by simp [addCf, hf, hb]
    have hn : Dict.get? f.cfs cat = none := by simpa [Dict.has] using hb
    rw [e]
    refine ⟨?_, ?_, ?_⟩
    · intro n c t
      simp only [held]
      by_cases h : flowKey n c = k
      · rw [h, Dict.get?_set_self, hf]
        by_cases ht : t = cat
        · subst ht; simp [Dict.get?_set_self, hn]
        · simp [ht, Dict.get?_set_ne _ _ (Ne.symm ht)]
      · rw [Dict.get?_set_ne _ _ (Ne.symm h)]; simp [h]
    · intro k'
      by_cases h : k' = k
      · subst h; simp [Dict.get?_set_self, hf]
      · rw [Dict.get?_set_ne _ _ (Ne.symm h)]
    · intro h k' f' hf'
      by_cases hk : k' = k
      · subst hk
        rw [Dict.get?_set_self] at hf'
        cases hf'
        exact h k' f hf
      · rw [Dict.get?_set_ne _ _ (Ne.symm hk)] at hf'
        exact h k' f' hf'

/-- what a row adds -/
def RowAdds (lower : Str → Str) (r : Row Col) (qi : List (QInfo Col Cat)) (a a' : Arch Cat) : Prop :=
    (∀ n c t, ',' ∉ c → held a' n c t = (held a n c t).or
      (if lower r.name = n then
        ((qi.filter fun i => decide (i.cat = t ∧ i.comp = c)).filterMap fun i => cell r i.col).head? else none)) ∧
    (∀ n c, ',' ∉ c → ((Dict.get? a' (flowKey n c)).isSome ↔ (Dict.get? a (flowKey n c)).isSome ∨
      lower r.name = n ∧ ∃ i ∈ qi, i.comp = c ∧ (cell r i.col).isSome)) ∧
    (Named a → Named a')

lemma addFlowable_spec (lower : Str → Str) (r : Row Col) (qi : List (QInfo Col Cat)) (hp : Plain qi) (a a' : Arch Cat)
    (h : addFlowable lower r qi a = .ok () a') : RowAdds lower r qi a a' := by
  induction qi generalizing a with
  | nil =>
    simp only [addFlowable, Out.ok.injEq, true_and] at h
    subst h
    simp [RowAdds]
  | cons i qi ih =>
    have hp' : Plain qi := fun j hj => hp j (List.mem_cons_of_mem _ hj)
    have skip : cell r i.col = none → addFlowable lower r qi a = .ok () a' → RowAdds lower r (i :: qi) a a' := fun hc h => by
      have := ih hp' a h
      refine ⟨?_, ?_, this.2.2⟩
      · intro n c t hcm
        rw [this.1 n c t hcm]
        congr 2
        rw [List.filter_cons]
        split
        · simp [hc]
        · rfl
      · intro n c hcm
        rw [this.2.1 n c hcm]
        constructor
        · rintro (h1 | ⟨h1, j, hj, h2⟩)
          · exact Or.inl h1
          · exact Or.inr ⟨h1, j, List.mem_cons_of_mem _ hj, h2⟩
        · rintro (h1 | ⟨h1, j, hj, h2, h3⟩)
          · exact Or.inl h1
          · rcases List.mem_cons.1 hj with rfl | hj
            · simp [hc] at h3
            · exact Or.inr ⟨h1, j, hj, h2, h3⟩
    rw [addFlowable] at h
    cases hg : Dict.get? r.cells i.col with
    | none => rw [hg] at h; simp at h
    | some v =>
      rw [hg] at h
      cases v with
      | none => exact skip (by simp [cell, hg]) h
      | some cf =>
        simp only at h
        by_cases h0 : cf = 0
        · rw [if_pos h0] at h
          exact skip (by simp [cell, hg, h0]) h
        · rw [if_neg h0] at h
          have hc : cell r i.col = some cf := by simp [cell, hg, h0]
          cases ht : transformNumericCas r.fcas with
          | error e => rw [(createFlow_spec lower r i.comp a).2 e ht] at h; simp [Out.bind] at h
          | ok cas =>
            obtain ⟨a1, e1, ⟨f, hf⟩, hv, hs, hn⟩ := (createFlow_spec lower r i.comp a).1 cas ht
            rw [e1] at h
            simp only [Out.bind] at h
            obtain ⟨av, as, an⟩ := addCf_spec (flowKey (lower r.name) i.comp) i.cat cf a1 f hf
            obtain ⟨iv, is, inn⟩ := ih hp' _ h
            have hic : ',' ∉ i.comp := hp i List.mem_cons_self
            refine ⟨?_, ?_, ?_⟩
            · intro n c t hcm
              rw [iv n c t hcm, av n c t, hv]
              by_cases hk : lower r.name = n
              · rw [if_pos hk, if_pos hk]
                by_cases hm : i.cat = t ∧ i.comp = c
                · rw [if_pos ⟨by rw [← hk, hm.2], hm.1.symm⟩, List.filter_cons_of_pos (by simpa using hm),
                    List.filterMap_cons_some (f := fun i : QInfo Col Cat => cell r i.col) hc]
                  cases held a n c t <;> simp
                · rw [if_neg, List.filter_cons_of_neg (by simpa using hm)]
                  rintro ⟨h1, h2⟩
                  exact hm ⟨h2.symm, (flow_key_injective _ _ _ _ hcm hic h1).2.symm⟩
              · rw [if_neg hk, if_neg hk, if_neg]
                rintro ⟨h1, -⟩
                exact hk (flow_key_injective _ _ _ _ hcm hic h1).1.symm
            · intro n c hcm
              rw [is n c hcm, as, hs]
              constructor
              · rintro ((h1 | h1) | ⟨h1, j, hj, h2⟩)
                · exact Or.inl h1
                · obtain ⟨e1, e2⟩ := flow_key_injective _ _ _ _ hcm hic h1
                  exact Or.inr ⟨e1.symm, i, by simp, e2.symm, by simp [hc]⟩
                · exact Or.inr ⟨h1, j, List.mem_cons_of_mem _ hj, h2⟩
              · rintro (h1 | ⟨h1, j, hj, h2, h3⟩)
                · exact Or.inl (Or.inl h1)
                · rcases List.mem_cons.1 hj with rfl | hj
                  · exact Or.inl (Or.inr (by rw [h1, h2]))
                  · exact Or.inr ⟨h1, j, hj, h2, h3⟩
            · intro hN
              refine inn (an ?_)
              intro k f' hf'
              rcases hn k f' hf' with h1 | ⟨h1, h2⟩
              · exact hN k f' h1
              · subst h2; exact ⟨h1, hic⟩

lemma addFlowable_returns (lower : Str → Str) (r : Row Col) (qi : List (QInfo Col Cat)) (a : Arch Cat) :
    (∃ a', addFlowable lower r qi a = .ok () a') ↔
      (∀ i ∈ qi, (Dict.get? r.cells i.col).isSome) ∧
      ((∃ i ∈ qi, (cell r i.col).isSome) → ∃ c, transformNumericCas r.fcas = .ok c) := by
  induction qi generalizing a with
  | nil => simp [addFlowable]
  | cons i qi ih =>
    rw [addFlowable]
    cases hg : Dict.get? r.cells i.col with
    | none => simp [hg]
    | some v =>
      cases v with
      | none =>
        have hc : cell r i.col = none := by simp [cell, hg]
        simp [ih, hg, hc]
      | some cf =>
        simp only
        by_cases h0 : cf = 0
        · have hc : cell r i.col = none := by simp [cell, hg, h0]
          simp [ih, hg, hc, h0]
        · rw [if_neg h0]
          have hc : cell r i.col = some cf := by simp [cell, hg, h0]
          cases ht : transformNumericCas r.fcas with
          | error e =>
            rw [(createFlow_spec lower r i.comp a).2 e ht]
            simp [Out.bind, hc]
          | ok cas =>
            obtain ⟨a1, e1, -⟩ := (createFlow_spec lower r i.comp a).1 cas ht
            rw [e1]
            simp only [Out.bind]
            rw [ih]
            simp [hg, ht]

/-- **C185**: `load_all` of TRACI returns exactly when every row has all columns and each row with a factor has a CAS number that
can be read. -/
theorem load_all_returns (lower : Str → Str) (qi : List (QInfo Col Cat)) (rows : List (Row Col)) (a : Arch Cat) :
    (∃ a', loadAll lower qi rows a = .ok () a') ↔
      ∀ r ∈ rows, (∀ i ∈ qi, (Dict.get? r.cells i.col).isSome) ∧
        ((∃ i ∈ qi, (cell r i.col).isSome) → ∃ c, transformNumericCas r.fcas = .ok c) := by
  induction rows generalizing a with
  | nil => simp [loadAll]
  | cons r rows ih =>
    rw [loadAll, List.forall_mem_cons]
    cases h : addFlowable lower r qi a with
    | ok u a1 =>
      have := (addFlowable_returns lower r qi a).1 ⟨a1, h⟩
      simp only [Out.bind]
      rw [ih]
      exact ⟨fun h1 => ⟨this, h1⟩, fun h1 => h1.2⟩
    | err e a1 =>
      constructor
      · rintro ⟨a', h1⟩; simp [Out.bind] at h1
      · rintro ⟨h1, -⟩
        obtain ⟨a', h2⟩ := (addFlowable_returns lower r qi a).2 h1
        rw [h] at h2; cases h2

lemma loadAll_spec (lower : Str → Str) (qi : List (QInfo Col Cat)) (hp : Plain qi) (rows : List (Row Col)) (a a' : Arch Cat)
    (h : loadAll lower qi rows a = .ok () a') :
    (∀ n c t, ',' ∉ c → held a' n c t = (held a n c t).or (hits lower qi rows n c t).head?) ∧
    (∀ n c, ',' ∉ c → ((Dict.get? a' (flowKey n c)).isSome ↔ (Dict.get? a (flowKey n c)).isSome ∨
      ∃ t, hits lower qi rows n c t ≠ [])) ∧
    (Named a → Named a') := by
  induction rows generalizing a with
  | nil =>
    simp only [loadAll, Out.ok.injEq, true_and] at h
    subst h
    simp [hits]
  | cons r rows ih =>
    rw [loadAll] at h
    cases h1 : addFlowable lower r qi a with
    | err e a1 => rw [h1] at h; simp [Out.bind] at h
    | ok u a1 =>
      rw [h1] at h
      simp only [Out.bind] at h
      obtain ⟨v1, s1, n1⟩ := addFlowable_spec lower r qi hp a a1 h1
      obtain ⟨v2, s2, n2⟩ := ih a1 h
      refine ⟨?_, ?_, fun hN => n2 (n1 hN)⟩
      · intro n c t hc
        rw [v2 n c t hc, v1 n c t hc]
        by_cases hk : lower r.name = n
        · rw [if_pos hk]
          have : hits lower qi (r :: rows) n c t =
              ((qi.filter fun i => decide (i.cat = t ∧ i.comp = c)).filterMap fun i => cell r i.col) ++
                hits lower qi rows n c t := by
            simp [hits, hk]
          rw [this, List.head?_append, Option.or_assoc]
        · rw [if_neg hk]
          have : hits lower qi (r :: rows) n c t = hits lower qi rows n c t := by simp [hits, hk]
          rw [this]; simp
      · intro n c hc
        rw [s2 n c hc, s1 n c hc, or_assoc]
        refine or_congr Iff.rfl ?_
        by_cases hk : lower r.name = n
        · have : ∀ t, hits lower qi (r :: rows) n c t =
              ((qi.filter fun i => decide (i.cat = t ∧ i.comp = c)).filterMap fun i => cell r i.col) ++
                hits lower qi rows n c t := by
            intro t; simp [hits, hk]
          constructor
          · rintro (⟨-, i, hi, hic, hs⟩ | ⟨t, ht⟩)
            · refine ⟨i.cat, ?_⟩
              rw [this]
              obtain ⟨v, hv⟩ := Option.isSome_iff_exists.1 hs
              intro h0
              have hm : v ∈ ((qi.filter fun j => decide (j.cat = i.cat ∧ j.comp = c)).filterMap fun i => cell r i.col) :=
                List.mem_filterMap.2 ⟨i, List.mem_filter.2 ⟨hi, by simpa using hic⟩, hv⟩
              rw [(List.append_eq_nil_iff.1 h0).1] at hm
              cases hm
            · refine ⟨t, ?_⟩
              rw [this]
              intro h0
              exact ht (List.append_eq_nil_iff.1 h0).2
          · rintro ⟨t, ht⟩
            rw [this] at ht
            by_cases h2 : hits lower qi rows n c t = []
            · rw [h2, List.append_nil] at ht
              obtain ⟨v, hv⟩ := List.exists_mem_of_ne_nil _ ht
              obtain ⟨i, hi, hv⟩ := List.mem_filterMap.1 hv
              rw [List.mem_filter] at hi
              exact Or.inl ⟨hk, i, hi.1, by simpa using (of_decide_eq_true hi.2).2, by simp [hv]⟩
            · exact Or.inr ⟨t, h2⟩
        · have : ∀ t, hits lower qi (r :: rows) n c t = hits lower qi rows n c t := by
            intro t; simp [hits, hk]
          simp [hk, this]

/-- **C185**: after `load_all` the factor of a substance in a compartment, for a category, is the first one the table lists;
later ones for the same substance are dropped without notice. There is a flow exactly for the substances and compartments with
a factor, and it has this name and compartment. -/
theorem load_all_first (lower : Str → Str) (qi : List (QInfo Col Cat)) (hp : Plain qi) (rows : List (Row Col)) (a : Arch Cat)
    (h : loadAll lower qi rows [] = .ok () a) (n c : Str) (hc : ',' ∉ c) :
    (∀ t, held a n c t = (hits lower qi rows n c t).head?) ∧
    ((Dict.get? a (flowKey n c)).isSome ↔ ∃ t, hits lower qi rows n c t ≠ []) ∧
    ∀ f, Dict.get? a (flowKey n c) = some f → f.name = n ∧ f.comp = c := by
  obtain ⟨v, s, m⟩ := loadAll_spec lower qi hp rows [] a h
  have e : ∀ k, Dict.get? ([] : Arch Cat) k = none := fun k => rfl
  refine ⟨?_, ?_, ?_⟩
  · intro t; rw [v n c t hc]; simp [held, e]
  · rw [s n c hc]; simp [e]
  · intro f hf
    obtain ⟨h1, h2⟩ := m (fun k f hk => by rw [e] at hk; cases hk) _ f hf
    obtain ⟨e1, e2⟩ := flow_key_injective _ _ _ _ hc h2 h1
    exact ⟨e1.symm, e2.symm⟩

/-! ### Query -/

/-- what the columns of a row give for a category and a compartment, in the order of the sheet -/
def listed (lower : Str → Str) (qi : List (QInfo Col Cat)) (r : Row Col) (cat : Option Cat) (comp : Option Str)
    (cs : List (Col × Option ℚ)) : List (Cf Cat) :=
  cs.filterMap fun p => (qi.find? fun i => decide (i.col = p.1)).bind fun i =>
    if (∀ t ∈ cat, i.cat = t) ∧ (∀ c ∈ comp, i.comp = c) then
      p.2.bind fun v => if v = 0 then none else some (flowKey (lower r.name) i.comp, i.cat, v)
    else none

/-- what a query gives for a row -/
def RowGives (lower : Str → Str) (qi : List (QInfo Col Cat)) (r : Row Col) (cat : Option Cat) (comp : Option Str)
    (cs : List (Col × Option ℚ)) (a : Arch Cat) : Prop :=
    (∀ e, transformNumericCas r.fcas = .error e → listed lower qi r cat comp cs ≠ [] →
      cfRow lower qi r cat comp cs a = .err e a) ∧
    ((∃ c, transformNumericCas r.fcas = .ok c) ∨ listed lower qi r cat comp cs = [] →
      ∃ a', cfRow lower qi r cat comp cs a = .ok (listed lower qi r cat comp cs) a' ∧
        ∀ n c t, held a' n c t = held a n c t)

lemma cfRow_spec (lower : Str → Str) (qi : List (QInfo Col Cat)) (r : Row Col) (cat : Option Cat) (comp : Option Str)
    (cs : List (Col × Option ℚ)) (a : Arch Cat) : RowGives lower qi r cat comp cs a := by
  induction cs generalizing a with
  | nil => exact ⟨fun e _ h => absurd rfl h, fun _ => ⟨a, rfl, fun _ _ _ => rfl⟩⟩
  | cons p cs ih =>
    obtain ⟨c, v⟩ := p
    have skip : (∀ a, cfRow lower qi r cat comp ((c, v) :: cs) a = cfRow lower qi r cat comp cs a) →
        listed lower qi r cat comp ((c, v) :: cs) = listed lower qi r cat comp cs →
        RowGives lower qi r cat comp ((c, v) :: cs) a := fun h1 h2 => by
      have := ih a
      unfold RowGives
      rw [h1, h2]
      exact this
    cases hi : (qi.find? fun i => decide (i.col = c)) with
    | none =>
      exact skip (fun a => by simp [cfRow, info, hi]) (by simp [listed, hi])
    | some i =>
      have hcond : ((cat = none ∨ cat = some i.cat) ∧ (comp = none ∨ comp = some i.comp)) ↔
          ((∀ t ∈ cat, i.cat = t) ∧ (∀ c ∈ comp, i.comp = c)) := by
        refine and_congr ?_ ?_
        · cases cat <;> simp [eq_comm]
        · cases comp <;> simp [eq_comm]
      by_cases hm : (cat = none ∨ cat = some i.cat) ∧ (comp = none ∨ comp = some i.comp)
      · cases v with
        | none =>
          exact skip (fun a => by simp [cfRow, info, hi]) (by simp [listed, hi])
        | some cf =>
          by_cases h0 : cf = 0
          · exact skip (fun a => by simp [cfRow, info, hi, h0]) (by simp [listed, hi, h0])
          · have el : listed lower qi r cat comp ((c, some cf) :: cs) =
                (flowKey (lower r.name) i.comp, i.cat, cf) :: listed lower qi r cat comp cs := by
              unfold listed
              rw [List.filterMap_cons_some]
              simp only [hi, Option.bind_some]
              rw [if_pos (hcond.1 hm)]
              simp [h0]
            have er : ∀ a, cfRow lower qi r cat comp ((c, some cf) :: cs) a = (createFlow lower r i.comp a).bind fun k a =>
                (cfRow lower qi r cat comp cs a).bind fun l a => .ok ((k, i.cat, cf) :: l) a := by
              intro a
              rw [cfRow, info, hi]
              simp only
              rw [if_pos hm, if_neg h0]
            unfold RowGives
            rw [er, el]
            constructor
            · intro e he _
              rw [(createFlow_spec lower r i.comp a).2 e he]; rfl
            · intro hok
              obtain ⟨cas, ht⟩ : ∃ c, transformNumericCas r.fcas = .ok c := by
                rcases hok with h | h
                · exact h
                · cases h
              obtain ⟨a1, e1, -, hv, -⟩ := (createFlow_spec lower r i.comp a).1 cas ht
              obtain ⟨a2, e2, hv2⟩ := (ih a1).2 (Or.inl ⟨cas, ht⟩)
              refine ⟨a2, ?_, fun n c t => (hv2 n c t).trans (hv n c t)⟩
              rw [e1]
              simp only [Out.bind, e2]
      · refine skip (fun a => ?_) ?_
        · rw [cfRow, info, hi]
          simp only
          rw [if_neg hm]
        · unfold listed
          rw [List.filterMap_cons_none]
          simp only [hi, Option.bind_some]
          rw [if_neg (fun h => hm (hcond.2 h))]

lemma cfRows_spec (lower : Str → Str) (qi : List (QInfo Col Cat)) (cat : Option Cat) (comp : Option Str)
    (rows : List (Row Col)) (a : Arch Cat)
    (h : ∀ r ∈ rows, (∃ c, transformNumericCas r.fcas = .ok c) ∨ listed lower qi r cat comp r.cells = []) :
    ∃ a', cfRows lower qi cat comp rows a = .ok (rows.flatMap fun r => listed lower qi r cat comp r.cells) a' ∧
        ∀ n c t, held a' n c t = held a n c t := by
  induction rows generalizing a with
  | nil => exact ⟨a, rfl, fun _ _ _ => rfl⟩
  | cons r rows ih =>
    obtain ⟨a1, e1, v1⟩ := (cfRow_spec lower qi r cat comp r.cells a).2 (h r (by simp))
    obtain ⟨a2, e2, v2⟩ := ih a1 (fun r hr => h r (by simp [hr]))
    refine ⟨a2, ?_, fun n c t => (v2 n c t).trans (v1 n c t)⟩
    rw [cfRows, e1]
    simp only [Out.bind, e2, List.flatMap_cons]

lemma cfRows_raises (lower : Str → Str) (qi : List (QInfo Col Cat)) (cat : Option Cat) (comp : Option Str)
    (rows : List (Row Col)) (a : Arch Cat)
    (h : ¬ ∀ r ∈ rows, (∃ c, transformNumericCas r.fcas = .ok c) ∨ listed lower qi r cat comp r.cells = []) :
    ∃ e a', cfRows lower qi cat comp rows a = .err e a' := by
  induction rows generalizing a with
  | nil => exact absurd (by simp) h
  | cons r rows ih =>
    by_cases hr : (∃ c, transformNumericCas r.fcas = .ok c) ∨ listed lower qi r cat comp r.cells = []
    · obtain ⟨a1, e1, v1⟩ := (cfRow_spec lower qi r cat comp r.cells a).2 hr
      obtain ⟨e, a', h'⟩ := ih a1 (fun h2 => h (fun s hs => by
        rcases List.mem_cons.1 hs with rfl | hs
        · exact hr
        · exact h2 s hs))
      refine ⟨e, a', ?_⟩
      rw [cfRows, e1]
      simp only [Out.bind, h']
    · push Not at hr
      cases ht : transformNumericCas r.fcas with
      | ok c => exact absurd ht (hr.1 c)
      | error e =>
        refine ⟨e, a, ?_⟩
        rw [cfRows, (cfRow_spec lower qi r cat comp r.cells a).1 e ht hr.2]; rfl

/-- the rows a query is about -/
def asked (lower : Str → Str) (rows : List (Row Col)) : Option Str → List (Row Col)
  | none => rows
  | some key => rowForKey lower rows key

/-- **C186**: `factors` gives the factor of every cell that is not zero, for the category and compartment asked, row by row in
the order of the sheet, and changes no factor of the archive; it raises exactly when a row with such a cell has a CAS number
that cannot be read. -/
theorem factors_spec (lower : Str → Str) (qi : List (QInfo Col Cat)) (rows : List (Row Col)) (cat : Cat)
    (flowable comp : Option Str) (a : Arch Cat) :
    ((∀ r ∈ asked lower rows flowable,
        (∃ c, transformNumericCas r.fcas = .ok c) ∨ listed lower qi r (some cat) comp r.cells = []) →
      ∃ a', factors lower qi rows cat flowable comp a =
          .ok ((asked lower rows flowable).flatMap fun r => listed lower qi r (some cat) comp r.cells) a' ∧
        ∀ n c t, held a' n c t = held a n c t) ∧
    ((¬ ∀ r ∈ asked lower rows flowable,
        (∃ c, transformNumericCas r.fcas = .ok c) ∨ listed lower qi r (some cat) comp r.cells = []) →
      ∃ e a', factors lower qi rows cat flowable comp a = .err e a') := by
  cases flowable with
  | none => exact ⟨cfRows_spec lower qi (some cat) comp rows a, cfRows_raises lower qi (some cat) comp rows a⟩
  | some key =>
    exact ⟨cfRows_spec lower qi (some cat) comp _ a, cfRows_raises lower qi (some cat) comp _ a⟩

lemma find_of_mem (qi : List (QInfo Col Cat)) (hq : (qi.map (·.col)).Nodup) (i : QInfo Col Cat) (hi : i ∈ qi) :
    (qi.find? fun j => decide (j.col = i.col)) = some i := by
  induction qi with
  | nil => cases hi
  | cons j qi ih =>
    rw [List.map_cons, List.nodup_cons] at hq
    rcases List.mem_cons.1 hi with rfl | hi
    · simp
    · have : j.col ≠ i.col := fun h => hq.1 (h ▸ List.mem_map_of_mem hi)
      rw [List.find?_cons_of_neg (by simpa using this)]
      exact ih hq.2 hi

/-- **C186**: when every category and compartment has one column, the factors found for a substance by its name are those the
table lists, so the factor that `load_all` keeps is the first of them: the two ways to get a factor agree exactly on the
substances listed once. -/
theorem factors_and_load (lower : Str → Str) (qi : List (QInfo Col Cat)) (hp : Plain qi) (hq : (qi.map (·.col)).Nodup)
    (h1 : ∀ i ∈ qi, ∀ j ∈ qi, i.cat = j.cat → i.comp = j.comp → i = j) (rows : List (Row Col))
    (hr : ∀ r ∈ rows, (Dict.keys r.cells).Nodup) (a b b' : Arch Cat) (hl : loadAll lower qi rows [] = .ok () a)
    (key comp : Str) (hk : casRegexp key = false) (hc : ',' ∉ comp) (cat : Cat) (l : List (Cf Cat))
    (hf : factors lower qi rows cat (some key) (some comp) b = .ok l b') :
    l.map (·.2.2) = hits lower qi rows (lower key) comp cat ∧
    held a (lower key) comp cat = (l.map (·.2.2)).head? := by
  have hrow : ∀ r ∈ rows, (listed lower qi r (some cat) (some comp) r.cells).map (·.2.2) =
      (qi.filter fun i => decide (i.cat = cat ∧ i.comp = comp)).filterMap fun i => cell r i.col := by
    intro r hrm
    cases hfi : qi.filter fun i => decide (i.cat = cat ∧ i.comp = comp) with
    | nil =>
      have hn : ∀ i ∈ qi, ¬ (i.cat = cat ∧ i.comp = comp) := by
        intro i hi h
        have : i ∈ qi.filter fun i => decide (i.cat = cat ∧ i.comp = comp) := List.mem_filter.2 ⟨hi, by simpa using h⟩
        rw [hfi] at this; cases this
      simp only [List.filterMap_nil, List.map_eq_nil_iff]
      unfold listed
      rw [List.filterMap_eq_nil_iff]
      intro p _
      cases hi : qi.find? fun i => decide (i.col = p.1) with
      | none => rfl
      | some i =>
        simp only [Option.bind_some]
        rw [if_neg]
        intro h
        exact hn i (List.mem_of_find?_eq_some hi) ⟨h.1 cat rfl, h.2 comp rfl⟩
    | cons i rest =>
      have hi : i ∈ qi ∧ i.cat = cat ∧ i.comp = comp := by
        have : i ∈ qi.filter fun i => decide (i.cat = cat ∧ i.comp = comp) := by rw [hfi]; simp
        simpa using List.mem_filter.1 this
      have hrest : rest = [] := by
        rw [List.eq_nil_iff_forall_not_mem]
        intro j hj
        have hjm : j ∈ qi.filter fun i => decide (i.cat = cat ∧ i.comp = comp) := by rw [hfi]; simp [hj]
        have hj' : j ∈ qi ∧ j.cat = cat ∧ j.comp = comp := by simpa using List.mem_filter.1 hjm
        have hij := h1 i hi.1 j hj'.1 (hi.2.1.trans hj'.2.1.symm) (hi.2.2.trans hj'.2.2.symm)
        subst hij
        have hnd : (qi.filter fun i => decide (i.cat = cat ∧ i.comp = comp)).Nodup :=
          (List.Nodup.of_map _ hq).filter _
        rw [hfi, List.nodup_cons] at hnd
        exact hnd.1 hj
      rw [hrest]
      have gen : ∀ cs : List (Col × Option ℚ), (cs.map Prod.fst).Nodup →
          (listed lower qi r (some cat) (some comp) cs).map (·.2.2) =
            ((Dict.get? cs i.col).bind fun v => v.bind fun x => if x = 0 then none else some x).toList := by
        intro cs hcs
        induction cs with
        | nil => rfl
        | cons p cs ih =>
          obtain ⟨c, v⟩ := p
          rw [List.map_cons, List.nodup_cons] at hcs
          by_cases hcc : c = i.col
          · subst hcc
            have hnone : Dict.get? cs i.col = none := by
              rw [← Dict.not_mem_keys_iff]; exact hcs.1
            have h2 := ih hcs.2
            rw [hnone] at h2
            have h3 : listed lower qi r (some cat) (some comp) cs = [] := by simpa using h2
            have h4 : Dict.get? ((i.col, v) :: cs) i.col = some v := by simp [Dict.get?]
            rw [h4]
            have : listed lower qi r (some cat) (some comp) ((i.col, v) :: cs) =
                (v.bind fun x => if x = 0 then none else some (flowKey (lower r.name) i.comp, i.cat, x)).toList ++
                  listed lower qi r (some cat) (some comp) cs := by
              unfold listed
              rw [List.filterMap_cons, find_of_mem qi hq i hi.1]
              simp only [Option.bind_some]
              rw [if_pos (by simp [hi.2.1, hi.2.2])]
              cases (v.bind fun x => if x = 0 then none else some (flowKey (lower r.name) i.comp, i.cat, x)) <;> rfl
            rw [this, h3, List.append_nil]
            cases v with
            | none => rfl
            | some x => by_cases h0 : x = 0 <;> simp [h0]
          · have h4 : Dict.get? ((c, v) :: cs) i.col = Dict.get? cs i.col := by
              simp [Dict.get?, hcc]
            rw [h4, ← ih hcs.2]
            congr 1
            unfold listed
            rw [List.filterMap_cons_none]
            cases hj : qi.find? fun j => decide (j.col = c) with
            | none => rfl
            | some j =>
              simp only [Option.bind_some]
              rw [if_neg]
              intro h
              have hjc : j.col = c := by simpa using List.find?_some hj
              have := h1 j (List.mem_of_find?_eq_some hj) i hi.1 ((h.1 cat rfl).trans hi.2.1.symm) ((h.2 comp rfl).trans hi.2.2.symm)
              subst this
              exact hcc hjc.symm
      rw [gen r.cells (hr r hrm)]
      simp only [List.filterMap_cons, List.filterMap_nil, cell]
      cases ((Dict.get? r.cells i.col).bind fun v => v.bind fun x => if x = 0 then none else some x) <;> rfl
  have hl' : l = (rowForKey lower rows key).flatMap fun r => listed lower qi r (some cat) (some comp) r.cells := by
    by_cases hok : ∀ r ∈ asked lower rows (some key),
        (∃ c, transformNumericCas r.fcas = .ok c) ∨ listed lower qi r (some cat) (some comp) r.cells = []
    · obtain ⟨a', e, -⟩ := (factors_spec lower qi rows cat (some key) (some comp) b).1 hok
      rw [hf] at e
      cases e
      rfl
    · obtain ⟨e, a', h⟩ := (factors_spec lower qi rows cat (some key) (some comp) b).2 hok
      rw [hf] at h; cases h
  have he : l.map (·.2.2) = hits lower qi rows (lower key) comp cat := by
    rw [hl', List.map_flatMap]
    unfold hits rowForKey
    rw [if_neg (by simp [hk])]
    apply List.flatMap_congr
    intro r hrm
    exact hrow r (List.mem_filter.1 hrm).1
  refine ⟨he, ?_⟩
  rw [he]
  exact (load_all_first lower qi hp rows a hl (lower key) comp hc).1 cat

/-- **C186**: `compartments` for a substance looks at the first row of that substance only: it gives the compartments for which
this row has a factor, each once, and raises when there is no row. -/
theorem compartments_first_row (lower : Str → Str) (qi : List (QInfo Col Cat)) (rows : List (Row Col)) (cat : Option Cat)
    (key : Str) (l : List Str) (h : compartments lower qi rows cat (some key) = .ok l) :
    ∃ r rest, rowForKey lower rows key = r :: rest ∧ l.Nodup ∧
      ∀ c, c ∈ l ↔ ∃ i ∈ qi, i.comp = c ∧ (∀ t ∈ cat, i.cat = t) ∧ (cell r i.col).isSome := by
  unfold compartments at h
  simp only at h
  cases hr : rowForKey lower rows key with
  | nil => rw [hr] at h; cases h
  | cons r rest =>
    rw [hr] at h
    simp only at h
    refine ⟨r, rest, rfl, ?_⟩
    cases hc : compsOf cat (some r) qi with
    | error e => rw [hc] at h; cases h
    | ok m =>
      rw [hc] at h
      have hl : l = m.dedup := by cases h; rfl
      subst hl
      refine ⟨List.nodup_dedup _, ?_⟩
      intro c
      rw [List.mem_dedup]
      clear hr h
      induction qi generalizing m with
      | nil => simp only [compsOf, Except.ok.injEq] at hc; subst hc; simp
      | cons i qi ih =>
        rw [compsOf] at hc
        have hcond : (cat = none ∨ cat = some i.cat) ↔ ∀ t ∈ cat, i.cat = t := by cases cat <;> simp [eq_comm]
        by_cases hm : cat = none ∨ cat = some i.cat
        · rw [if_pos hm] at hc
          cases hg : Dict.get? r.cells i.col with
          | none => rw [hg] at hc; cases hc
          | some v =>
            rw [hg] at hc
            cases v with
            | none => rw [ih m hc]; simp [cell, hg]
            | some cf =>
              simp only at hc
              by_cases h0 : cf = 0
              · rw [if_neg (by simpa using h0)] at hc
                rw [ih m hc]; simp [cell, hg, h0]
              · rw [if_pos h0] at hc
                cases hq : compsOf cat (some r) qi with
                | error e => rw [hq] at hc; cases hc
                | ok m' =>
                  rw [hq] at hc
                  have : m = i.comp :: m' := by cases hc; rfl
                  subst this
                  rw [List.mem_cons, ih m' hq]
                  have hs : (cell r i.col).isSome := by simp [cell, hg, h0]
                  constructor
                  · rintro (h | ⟨j, hj, h⟩)
                    · exact ⟨i, by simp, h.symm, hcond.1 hm, hs⟩
                    · exact ⟨j, List.mem_cons_of_mem _ hj, h⟩
                  · rintro ⟨j, hj, h⟩
                    rcases List.mem_cons.1 hj with rfl | hj
                    · exact Or.inl h.1.symm
                    · exact Or.inr ⟨j, hj, h⟩
        · rw [if_neg hm] at hc
          rw [ih m hc]
          constructor
          · rintro ⟨j, hj, h⟩; exact ⟨j, List.mem_cons_of_mem _ hj, h⟩
          · rintro ⟨j, hj, h⟩
            rcases List.mem_cons.1 hj with rfl | hj
            · exact absurd (hcond.2 h.2.1) hm
            · exact ⟨j, hj, h⟩

end

/-! ### Example -/

/-- two columns for two categories in air, a third for water; a substance that is listed twice -/
def exQi : List (QInfo ℕ Bool) := [⟨1, true, "air".toList⟩, ⟨2, false, "air".toList⟩, ⟨3, false, "water".toList⟩]

def exRows : List (Row ℕ) :=
  [⟨"CO2".toList, .num 124389, .text "124-38-9".toList, [(0, none), (1, some 1), (2, some 0), (3, none)]⟩,
   ⟨"NOx".toList, .none, .text ['x'], [(0, none), (1, some 0), (2, some 3), (3, some 4)]⟩,
   ⟨"co2".toList, .num 124389, .num 124389, [(0, none), (1, some 2), (2, some 5), (3, some 6)]⟩]

def low (s : Str) : Str := s.map Char.toLower

example : Plain exQi ∧ ((loadAll low exQi exRows []).value? = some ()) ∧
    hits low exQi exRows "co2".toList "air".toList true = [1, 2] ∧
    held (loadAll low exQi exRows []).state "co2".toList "air".toList true = some 1 ∧
    held (loadAll low exQi exRows []).state "co2".toList "air".toList false = some 5 ∧
    held (loadAll low exQi exRows []).state "nox".toList "air".toList true = none := by
  refine ⟨?_, by decide +kernel, by decide +kernel, by decide +kernel, by decide +kernel, by decide +kernel⟩
  unfold Plain; decide +kernel

/-- both factors are found by a query; the compartments of the second row are not -/
example : ((factors low exQi exRows true (some "CO2".toList) (some "air".toList) []).value?.map
      (List.map fun p : Cf Bool => p.2.2)) = some [1, 2] ∧
    ((factors low exQi exRows false (some "124-38-9".toList) (some "water".toList) []).value?.map
      (List.map fun p : Cf Bool => p.2.2)) = some [6] ∧
    ((compartments low exQi exRows none (some "CO2".toList)).toOption.map (List.map String.ofList)) = some ["air"] ∧
    (exQi.map (·.col)).Nodup ∧ casRegexp "CO2".toList = false := by
  refine ⟨by decide +kernel, by decide +kernel, by decide +kernel, by decide +kernel, by decide +kernel⟩

/-- **C185**: a CAS number of ten digits stops `load_all`: rows after it are not read. -/
theorem load_all_stops_at_long_cas : ∃ rows : List (Row ℕ),
    (loadAll low exQi rows []).error? = some .valueError ∧
    hits low exQi rows "nox".toList "water".toList false ≠ [] ∧
    held (loadAll low exQi rows []).state "nox".toList "water".toList false = none := by
  refine ⟨[⟨"Saflufenacil".toList, .none, .text "1372134-80-5".toList, [(1, some 1), (2, none), (3, none)]⟩,
    ⟨"NOx".toList, .none, .text ['x'], [(1, some 0), (2, some 3), (3, some 4)]⟩], by decide +kernel, by decide +kernel,
    by decide +kernel⟩

end Ltab
