import Verif.Props.TraciTable

/-! C187: loading the LCIA factors of ecoinvent. -/

namespace Ltab

/-- the factor of a flow for a quantity, both by key -/
def eheld (a : EArch) (fk qk : Str) : Option ℚ := (Dict.get? a.flows fk).bind fun f => Dict.get? f.cfs qk

/-- the keys of flow and quantity of a row -/
def pair (r : ERow) : Str × Str := (key3 r.name r.comp r.sub, key3 r.method r.category r.indicator)

lemma eFlow_held (r : ERow) (a : EArch) (fk qk : Str) : eheld (eFlow r a) fk qk = eheld a fk qk := by
  unfold eFlow
  cases h : Dict.get? a.flows (key3 r.name r.comp r.sub) with
  | some f => rfl
  | none =>
    simp only [eheld]
    by_cases hk : fk = key3 r.name r.comp r.sub
    · subst hk; rw [Dict.get?_set_self, h]; rfl
    · rw [Dict.get?_set_ne _ _ (Ne.symm hk)]

lemma eFlow_get (r : ERow) (a : EArch) : ∃ f, Dict.get? (eFlow r a).flows (key3 r.name r.comp r.sub) = some f := by
  unfold eFlow
  cases h : Dict.get? a.flows (key3 r.name r.comp r.sub) with
  | some f => exact ⟨f, h⟩
  | none => exact ⟨_, Dict.get?_set_self _ _ _⟩

lemma eQty_flows (r : ERow) (a : EArch) : (eQty r a).flows = a.flows := by
  unfold eQty
  split <;> rfl

/-- one row: it raises, without a change of any factor, or adds its factor -/
lemma eLoad_cons (r : ERow) (rows : List ERow) (a : EArch) :
    (r.value = none ∨ eheld a (pair r).1 (pair r).2 ≠ none →
      ∃ e a', eLoad (r :: rows) a = .err e a' ∧ ∀ fk qk, eheld a' fk qk = eheld a fk qk) ∧
    (∀ v, r.value = some v → eheld a (pair r).1 (pair r).2 = none →
      ∃ a', eLoad (r :: rows) a = eLoad rows a' ∧
        (∀ fk qk, eheld a' fk qk = if (fk, qk) = pair r then some v else eheld a fk qk) ∧
        (∀ k, (Dict.get? a'.flows k).map (fun f => (f.name, f.comp, f.sub)) =
          (Dict.get? (eFlow r a).flows k).map (fun f => (f.name, f.comp, f.sub)))) := by
  obtain ⟨f, hf⟩ := eFlow_get r a
  have hf' : Dict.get? (eQty r (eFlow r a)).flows (key3 r.name r.comp r.sub) = some f := by rw [eQty_flows]; exact hf
  have hh : ∀ fk qk, eheld (eQty r (eFlow r a)) fk qk = eheld a fk qk := by
    intro fk qk
    rw [← eFlow_held r a fk qk]
    simp only [eheld, eQty_flows]
  have hc : Dict.get? f.cfs (key3 r.method r.category r.indicator) = eheld a (pair r).1 (pair r).2 := by
    rw [← hh]
    simp only [eheld, pair, hf', Option.bind_some]
  constructor
  · rintro (h | h)
    · refine ⟨.valueError, eQty r (eFlow r a), ?_, hh⟩
      rw [eLoad]; simp only [h]
    · cases hv : r.value with
      | none =>
        refine ⟨.valueError, eQty r (eFlow r a), ?_, hh⟩
        rw [eLoad]; simp only [hv]
      | some v =>
        refine ⟨.duplicate, eQty r (eFlow r a), ?_, hh⟩
        have : f.cfs.has (key3 r.method r.category r.indicator) = true := by
          rw [Dict.has, hc]; exact Option.isSome_iff_ne_none.2 h
        rw [eLoad]; simp only [hv, hf', this, if_true]
  · intro v hv hn
    have : f.cfs.has (key3 r.method r.category r.indicator) = false := by
      rw [Dict.has, hc, hn]; rfl
    refine ⟨⟨Dict.set (eQty r (eFlow r a)).flows (key3 r.name r.comp r.sub)
        ⟨f.name, f.comp, f.sub, Dict.set f.cfs (key3 r.method r.category r.indicator) v⟩, (eQty r (eFlow r a)).qtys⟩,
      by rw [eLoad]; simp only [hv, hf', this, Bool.false_eq_true, if_false], ?_, ?_⟩
    · intro fk qk
      simp only [eheld, eQty_flows]
      by_cases hk : fk = key3 r.name r.comp r.sub
      · subst hk
        rw [Dict.get?_set_self]
        simp only [Option.bind_some]
        by_cases hq : qk = key3 r.method r.category r.indicator
        · subst hq; rw [Dict.get?_set_self]; simp [pair]
        · rw [Dict.get?_set_ne _ _ (Ne.symm hq), if_neg (by simp [pair, hq])]
          have := hh (key3 r.name r.comp r.sub) qk
          simpa only [eheld, hf', Option.bind_some] using this
      · rw [Dict.get?_set_ne _ _ (Ne.symm hk), if_neg (by simp [pair, hk])]
        have := eFlow_held r a fk qk
        simpa only [eheld] using this
    · intro k
      rw [eQty_flows]
      simp only
      by_cases hk : k = key3 r.name r.comp r.sub
      · subst hk
        rw [Dict.get?_set_self, hf]; rfl
      · rw [Dict.get?_set_ne _ _ (Ne.symm hk)]

/-- rows that can be loaded into an archive -/
def Good (rows : List ERow) (a : EArch) : Prop :=
  (∀ r ∈ rows, r.value ≠ none) ∧ (rows.map pair).Nodup ∧ ∀ r ∈ rows, eheld a (pair r).1 (pair r).2 = none

/-- the state after rows that can be loaded, and rows that follow them -/
lemma eLoad_good (rows post : List ERow) (a : EArch) (h : Good rows a) :
    ∃ a', eLoad (rows ++ post) a = eLoad post a' ∧
      (∀ r ∈ rows, eheld a' (pair r).1 (pair r).2 = r.value) ∧
      (∀ fk qk, (fk, qk) ∉ rows.map pair → eheld a' fk qk = eheld a fk qk) := by
  induction rows generalizing a with
  | nil => exact ⟨a, rfl, by simp, fun _ _ _ => rfl⟩
  | cons r rows ih =>
    obtain ⟨h1, h2, h3⟩ := h
    rw [List.map_cons, List.nodup_cons] at h2
    obtain ⟨v, hv⟩ := Option.ne_none_iff_exists'.1 (h1 r (by simp))
    obtain ⟨a1, e1, v1, -⟩ := (eLoad_cons r (rows ++ post) a).2 v hv (h3 r (by simp))
    obtain ⟨a2, e2, v2, v3⟩ := ih a1 ⟨fun s hs => h1 s (by simp [hs]), h2.2, fun s hs => by
      rw [v1, if_neg (fun hp : pair s = pair r => h2.1 (hp ▸ List.mem_map_of_mem hs))]
      exact h3 s (by simp [hs])⟩
    refine ⟨a2, by rw [List.cons_append, e1, e2], ?_, ?_⟩
    · intro s hs
      rcases List.mem_cons.1 hs with rfl | hs
      · rw [v3 (pair s).1 (pair s).2 h2.1, v1, if_pos rfl, hv]
      · exact v2 s hs
    · intro fk qk hm
      rw [List.map_cons, List.mem_cons, not_or] at hm
      rw [v3 _ _ hm.2, v1, if_neg hm.1]

lemma eheld_empty (fk qk : Str) : eheld {} fk qk = none := rfl

lemma good_empty (rows : List ERow) : Good rows {} ↔ (∀ r ∈ rows, r.value ≠ none) ∧ (rows.map pair).Nodup := by
  simp [Good, eheld_empty]

/-- **C187**: when all rows have a number, and no two rows have the same flow and quantity, all factors are loaded, and no
others. -/
theorem ecoinvent_load (rows : List ERow) (h1 : ∀ r ∈ rows, r.value ≠ none) (h2 : (rows.map pair).Nodup) :
    ∃ a, eLoad rows {} = .ok () a ∧ (∀ r ∈ rows, eheld a (pair r).1 (pair r).2 = r.value) ∧
      ∀ fk qk v, eheld a fk qk = some v → ∃ r ∈ rows, pair r = (fk, qk) ∧ r.value = some v := by
  obtain ⟨a, e, v, v'⟩ := eLoad_good rows [] {} ((good_empty rows).2 ⟨h1, h2⟩)
  rw [List.append_nil] at e
  refine ⟨a, e, v, ?_⟩
  intro fk qk w hw
  by_cases hm : (fk, qk) ∈ rows.map pair
  · obtain ⟨r, hr, hp⟩ := List.mem_map.1 hm
    refine ⟨r, hr, hp, ?_⟩
    rw [← v r hr, hp]; exact hw
  · rw [v' fk qk hm, eheld_empty] at hw; cases hw

/-- **C187**: the first row without a number, or with flow and quantity of an earlier row, raises and ends the load: the archive
keeps the factors of the rows before it and has no others, whatever follows. -/
theorem ecoinvent_load_stops (pre post : List ERow) (r : ERow) (h1 : ∀ s ∈ pre, s.value ≠ none) (h2 : (pre.map pair).Nodup)
    (hr : r.value = none ∨ pair r ∈ pre.map pair) :
    ∃ e a, eLoad (pre ++ r :: post) {} = .err e a ∧ (∀ s ∈ pre, eheld a (pair s).1 (pair s).2 = s.value) ∧
      ∀ fk qk v, eheld a fk qk = some v → ∃ s ∈ pre, pair s = (fk, qk) ∧ s.value = some v := by
  obtain ⟨a, e, v, v'⟩ := eLoad_good pre (r :: post) {} ((good_empty pre).2 ⟨h1, h2⟩)
  have hbad : r.value = none ∨ eheld a (pair r).1 (pair r).2 ≠ none := by
    rcases hr with h | h
    · exact Or.inl h
    · obtain ⟨s, hs, hp⟩ := List.mem_map.1 h
      right
      rw [← hp, v s hs]
      exact h1 s hs
  obtain ⟨x, a', e', hv⟩ := (eLoad_cons r post a).1 hbad
  refine ⟨x, a', by rw [e, e'], fun s hs => by rw [hv, v s hs], ?_⟩
  intro fk qk w hw
  rw [hv] at hw
  by_cases hm : (fk, qk) ∈ pre.map pair
  · obtain ⟨s, hs, hp⟩ := List.mem_map.1 hm
    refine ⟨s, hs, hp, ?_⟩
    rw [← v s hs, hp]; exact hw
  · rw [v' fk qk hm, eheld_empty] at hw; cases hw

/-- **C187**: the load returns exactly under the condition of `ecoinvent_load`. -/
theorem ecoinvent_load_returns (rows : List ERow) :
    (∃ a, eLoad rows {} = .ok () a) ↔ (∀ r ∈ rows, r.value ≠ none) ∧ (rows.map pair).Nodup := by
  constructor
  · have : ∀ a : EArch, (∃ a', eLoad rows a = .ok () a') → Good rows a := by
      induction rows with
      | nil => intro a _; simp [Good]
      | cons r rows ih =>
        rintro a ⟨a', h⟩
        by_cases hb : r.value = none ∨ eheld a (pair r).1 (pair r).2 ≠ none
        · obtain ⟨x, a1, e1, -⟩ := (eLoad_cons r rows a).1 hb
          rw [e1] at h; cases h
        · push Not at hb
          obtain ⟨v, hv⟩ := Option.ne_none_iff_exists'.1 hb.1
          obtain ⟨a1, e1, v1, -⟩ := (eLoad_cons r rows a).2 v hv hb.2
          obtain ⟨g1, g2, g3⟩ := ih a1 ⟨a', by rw [← e1, h]⟩
          refine ⟨?_, ?_, ?_⟩
          · intro s hs
            rcases List.mem_cons.1 hs with rfl | hs
            · exact hb.1
            · exact g1 s hs
          · rw [List.map_cons, List.nodup_cons]
            refine ⟨?_, g2⟩
            intro hm
            obtain ⟨s, hs, hp⟩ := List.mem_map.1 hm
            have := g3 s hs
            rw [v1, hp, if_pos rfl] at this
            cases this
          · intro s hs
            rcases List.mem_cons.1 hs with rfl | hs
            · exact hb.2
            · have := g3 s hs
              rw [v1] at this
              split at this
              · cases this
              · exact this
    intro h
    exact (good_empty rows).1 (this {} h)
  · rintro ⟨h1, h2⟩
    obtain ⟨a, e, -⟩ := ecoinvent_load rows h1 h2
    exact ⟨a, e⟩

/-- **C187**: keys of flows are different unless name, compartment and subcompartment are the same, when compartments and
subcompartments hold no comma; the same for quantities. -/
theorem key3_injective (a b c a' b' c' : Str) (hb : ',' ∉ b) (hc : ',' ∉ c) (hb' : ',' ∉ b') (hc' : ',' ∉ c')
    (h : key3 a b c = key3 a' b' c') : a = a' ∧ b = b' ∧ c = c' := by
  have e : ∀ a b c : Str, key3 a b c = flowKey (flowKey a b) c := by
    intro a b c; simp [key3, flowKey]
  rw [e, e] at h
  obtain ⟨h1, h2⟩ := flow_key_injective _ _ _ _ hc hc' h
  obtain ⟨h3, h4⟩ := flow_key_injective _ _ _ _ hb hb' h1
  exact ⟨h3, h4, h2⟩

/-- **C187**: then each factor is on the flow with the name, compartment and subcompartment of its row. -/
theorem ecoinvent_flow_named (rows : List ERow) (h : ∀ r ∈ rows, ',' ∉ r.comp ∧ ',' ∉ r.sub) (a : EArch)
    (hl : eLoad rows {} = .ok () a) (r : ERow) (hr : r ∈ rows) :
    ∃ f, Dict.get? a.flows (key3 r.name r.comp r.sub) = some f ∧ f.name = r.name ∧ f.comp = r.comp ∧ f.sub = r.sub ∧
      Dict.get? f.cfs (key3 r.method r.category r.indicator) = r.value := by
  have hg := (ecoinvent_load_returns rows).1 ⟨a, hl⟩
  obtain ⟨a2, e2, v2, -⟩ := ecoinvent_load rows hg.1 hg.2
  rw [hl] at e2
  cases e2
  have inv : ∀ (l : List ERow), (∀ r ∈ l, r ∈ rows) → ∀ b : EArch,
      (∀ k f, Dict.get? b.flows k = some f → k = key3 f.name f.comp f.sub ∧ ',' ∉ f.comp ∧ ',' ∉ f.sub) →
      ∀ b', eLoad l b = .ok () b' →
      ∀ k f, Dict.get? b'.flows k = some f → k = key3 f.name f.comp f.sub ∧ ',' ∉ f.comp ∧ ',' ∉ f.sub := by
    intro l
    induction l with
    | nil => intro _ b hb b' h'; simp only [eLoad, Out.ok.injEq, true_and] at h'; subst h'; exact hb
    | cons s l ih =>
      intro hm b hb b' h'
      by_cases hbad : s.value = none ∨ eheld b (pair s).1 (pair s).2 ≠ none
      · obtain ⟨x, a1, e1, -⟩ := (eLoad_cons s l b).1 hbad
        rw [e1] at h'; cases h'
      · push Not at hbad
        obtain ⟨v, hv⟩ := Option.ne_none_iff_exists'.1 hbad.1
        obtain ⟨a1, e1, -, n1⟩ := (eLoad_cons s l b).2 v hv hbad.2
        refine ih (fun r hr => hm r (by simp [hr])) a1 ?_ b' (by rw [← e1, h'])
        intro k f hf
        have hn := n1 k
        rw [hf, Option.map_some] at hn
        obtain ⟨g, hg1, hg2⟩ := Option.map_eq_some_iff.1 hn.symm
        have hgg : k = key3 g.name g.comp g.sub ∧ ',' ∉ g.comp ∧ ',' ∉ g.sub := by
          unfold eFlow at hg1
          cases h0 : Dict.get? b.flows (key3 s.name s.comp s.sub) with
          | some f0 => rw [h0] at hg1; exact hb k g hg1
          | none =>
            rw [h0] at hg1
            simp only at hg1
            by_cases hk : k = key3 s.name s.comp s.sub
            · subst hk
              rw [Dict.get?_set_self] at hg1
              cases hg1
              exact ⟨rfl, h s (hm s (by simp))⟩
            · rw [Dict.get?_set_ne _ _ (Ne.symm hk)] at hg1
              exact hb k g hg1
        simp only [Prod.mk.injEq] at hg2
        rw [← hg2.1, ← hg2.2.1, ← hg2.2.2]
        exact hgg
  have hv := v2 r hr
  obtain ⟨v, hrv⟩ := Option.ne_none_iff_exists'.1 (hg.1 r hr)
  rw [hrv] at hv
  unfold eheld at hv
  obtain ⟨f, hf, hc⟩ := Option.bind_eq_some_iff.1 hv
  obtain ⟨h1, h2, h3⟩ := inv rows (fun _ h => h) {} (fun k f hk => by cases hk) a hl _ f hf
  obtain ⟨e1, e2, e3⟩ := key3_injective _ _ _ _ _ _ (h r hr).1 (h r hr).2 h2 h3 h1
  exact ⟨f, hf, e1.symm, e2.symm, e3.symm, by rw [hrv]; exact hc⟩

/-! ### Examples -/

def exE : List ERow :=
  [⟨"Carbon dioxide, fossil".toList, "air".toList, "urban".toList, "M".toList, "climate change".toList, "GWP".toList, none, some 1⟩,
   ⟨"Methane".toList, "air".toList, "urban".toList, "M".toList, "climate change".toList, "GWP".toList, some (some 28), some 25⟩,
   ⟨"Methane".toList, "air".toList, "urban".toList, "M".toList, "ozone".toList, "POCP".toList, none, some 0⟩]

example : (∀ r ∈ exE, r.value ≠ none) ∧ (exE.map pair).Nodup ∧ (∀ r ∈ exE, ',' ∉ r.comp ∧ ',' ∉ r.sub) ∧
    eheld (eLoad exE {}).state (key3 "Methane".toList "air".toList "urban".toList)
      (key3 "M".toList "climate change".toList "GWP".toList) = some 28 := by
  refine ⟨by decide +kernel, by decide +kernel, by decide +kernel, by decide +kernel⟩

/-- a duplicate raises and the third row is not loaded -/
example : (eLoad (exE.take 2 ++ ⟨"Methane".toList, "air".toList, "urban".toList, "M".toList, "climate change".toList, "GWP".toList,
      none, some 28⟩ :: exE.drop 2) {}).error? = some .duplicate := by decide +kernel

/-- **C187**: with a comma in a compartment two flows can have one key: then the second flow is not made, and its factor is on
the first. -/
theorem ecoinvent_key_collision : ∃ r s : ERow, (r.name, r.comp, r.sub) ≠ (s.name, s.comp, s.sub) ∧
    ((eLoad [r, s] {}).state.flows.map fun p => (p.2.name, p.2.comp, p.2.sub)) = [(r.name, r.comp, r.sub)] ∧
    eheld (eLoad [r, s] {}).state (key3 r.name r.comp r.sub) (key3 s.method s.category s.indicator) = s.value ∧
    s.value ≠ none ∧ pair r ≠ pair s := by
  refine ⟨⟨"Zinc".toList, "air".toList, "low. pop., long-term".toList, "M".toList, "tox".toList, "A".toList, none, some 3⟩,
    ⟨"Zinc, air".toList, "low. pop.".toList, "long-term".toList, "M".toList, "tox".toList, "B".toList, none, some 5⟩,
    by decide +kernel, by decide +kernel, by decide +kernel, by decide +kernel, by decide +kernel⟩

end Ltab
