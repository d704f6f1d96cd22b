import Verif.Model.FlowJson
import Verif.Props.Flow
import Mathlib.Data.List.Perm.Basic

/-!
C105: the characterisations of a flow that is written to a JSON file and read again.
-/

namespace Flo
variable {Q : Type} [DecidableEq Q]

/-! ### specification -/

/-- the same content; the locations of a value may have another order (the file is written with sorted keys) -/
structure SameC (a b : JC Q) : Prop where
  quantity : a.quantity = b.quantity
  isRef : a.isRef = b.isRef
  value : a.value = b.value ∨ ∃ v w, a.value = .dict v ∧ b.value = .dict w ∧ v.Perm w

/-- the file has the characterisations of the flow, in any order -/
def SameF (a b : List (JC Q)) : Prop := ∃ l, a.Perm l ∧ List.Forall₂ SameC l b

/-- the reference quantity has the factor 1, and the factors of other quantities are not given for one region only, nor for
regions besides the global one -/
structure Plain (st : State Q) : Prop where
  ref : ∀ r, st.ref = some r → st.chars.get? r = some [(.glo, 1)]
  other : ∀ q c, st.chars.get? q = some c → (∃ v, Dict.get? c .glo = some v) → c.length = 1
  regional : ∀ q c, st.chars.get? q = some c → Dict.get? c .glo = none → c.length ≠ 1

/-! ### the reader -/

/-- the entry a characterisation makes -/
def JC.entry (j : JC Q) : Char :=
  if j.isRef then [(.glo, 1)]
  else match j.value with
    | .none => []
    | .num v => [(.glo, v)]
    | .dict d => Char.update [] d

theorem load_one {j : JC Q} {st : State Q} (hf : st.chars.get? j.quantity = none) (hr : j.isRef = true → st.ref = none ∧ j.value = .none) :
    addChar j.quantity j.isRef j.value false none st = .ok () { st with
      chars := st.chars.set j.quantity j.entry, ref := if j.isRef then some j.quantity else st.ref } := by
  unfold addChar JC.entry
  cases hj : j.isRef with
  | true =>
    obtain ⟨h1, h2⟩ := hr hj
    have hs : setReference j.quantity st = .ok () { st with ref := some j.quantity } := by
      unfold setReference; rw [h1]
    simp only [if_true, h2, true_or, hs, Out.bind]
    unfold addFactor
    simp only [hf]
    rfl
  | false =>
    simp only [Bool.false_eq_true, if_false]
    unfold addFactor
    cases hv : j.value with
    | none => simp only [hf]
    | num v => simp only [hf]; rfl
    | dict d => simp only [hf]; rfl

theorem loadChars_spec {has : Q → Bool} (l : List (JC Q)) : ∀ (st : State Q), (l.map JC.quantity).Nodup →
    (∀ j ∈ l, st.chars.get? j.quantity = none) → (∀ j ∈ l, j.isRef = true → j.value = .none) →
    (∀ j ∈ l, j.isRef = true → st.ref = none ∧ ∀ j' ∈ l, j'.isRef = true → j'.quantity = j.quantity) →
    ∃ st', loadChars has l st = .ok () st' ∧
      (∀ j ∈ l, st'.chars.get? j.quantity = if has j.quantity then some j.entry else none) ∧
      (∀ q, (∀ j ∈ l, j.quantity ≠ q) → st'.chars.get? q = st.chars.get? q) ∧
      (∀ r, st'.ref = some r ↔ st.ref = some r ∨ ∃ j ∈ l, j.isRef = true ∧ j.quantity = r ∧ has r = true) := by
  induction l with
  | nil => intro st _ _ _ _; exact ⟨st, rfl, by simp, fun _ _ => rfl, by simp⟩
  | cons j l ih =>
    intro st hn hf hv hr
    have hn' := List.nodup_cons.1 (by simpa using hn : (j.quantity :: l.map JC.quantity).Nodup)
    have hne : ∀ j' ∈ l, j'.quantity ≠ j.quantity := fun j' hj' hc => hn'.1 (List.mem_map.2 ⟨j', hj', hc⟩)
    rw [loadChars]
    by_cases hh : has j.quantity = true
    · rw [if_pos hh, load_one (hf j List.mem_cons_self)
        fun h => ⟨(hr j List.mem_cons_self h).1, hv j List.mem_cons_self h⟩]
      simp only [Out.bind]
      obtain ⟨st', h1, h2, h3, h4⟩ := ih { st with
          chars := st.chars.set j.quantity j.entry, ref := if j.isRef then some j.quantity else st.ref } hn'.2
        (fun j' hj' => by
          show Dict.get? (st.chars.set j.quantity j.entry) j'.quantity = none
          rw [Dict.get?_set_ne _ _ (hne j' hj').symm]
          exact hf j' (List.mem_cons_of_mem _ hj'))
        (fun j' hj' => hv j' (List.mem_cons_of_mem _ hj'))
        (fun j' hj' hr' => by
          refine ⟨?_, fun j'' hj'' => (hr j' (List.mem_cons_of_mem _ hj') hr').2 j'' (List.mem_cons_of_mem _ hj'')⟩
          show (if j.isRef then some j.quantity else st.ref) = none
          cases hj : j.isRef with
          | true => exact absurd ((hr j List.mem_cons_self hj).2 j' (List.mem_cons_of_mem _ hj') hr') (hne j' hj')
          | false => exact (hr j' (List.mem_cons_of_mem _ hj') hr').1)
      refine ⟨st', h1, ?_, ?_, ?_⟩
      · intro j' hj'
        rcases List.mem_cons.1 hj' with rfl | hj'
        · rw [h3 _ hne, if_pos hh]
          exact Dict.get?_set_self _ _ _
        · exact h2 j' hj'
      · intro q hq
        rw [h3 q fun j' hj' => hq j' (List.mem_cons_of_mem _ hj')]
        exact Dict.get?_set_ne _ _ (hq j List.mem_cons_self)
      · intro r
        rw [h4]
        constructor
        · rintro (h | ⟨j', hj', h⟩)
          · cases hj : j.isRef with
            | true =>
              simp only [hj, if_true, Option.some.injEq] at h
              subst h
              exact .inr ⟨j, List.mem_cons_self, hj, rfl, hh⟩
            | false => simp only [hj, Bool.false_eq_true, if_false] at h; exact .inl h
          · exact .inr ⟨j', List.mem_cons_of_mem _ hj', h⟩
        · rintro (h | ⟨j', hj', h⟩)
          · cases hj : j.isRef with
            | true => rw [(hr j List.mem_cons_self hj).1] at h; cases h
            | false => exact .inl (by simpa [hj] using h)
          · rcases List.mem_cons.1 hj' with rfl | hj'
            · left; simp [h.1, h.2.1]
            · exact .inr ⟨j', hj', h⟩
    · rw [if_neg hh]
      obtain ⟨st', h1, h2, h3, h4⟩ := ih st hn'.2 (fun j' hj' => hf j' (List.mem_cons_of_mem _ hj'))
        (fun j' hj' => hv j' (List.mem_cons_of_mem _ hj'))
        (fun j' hj' hr' => ⟨(hr j' (List.mem_cons_of_mem _ hj') hr').1, fun j'' hj'' =>
          (hr j' (List.mem_cons_of_mem _ hj') hr').2 j'' (List.mem_cons_of_mem _ hj'')⟩)
      refine ⟨st', h1, ?_, ?_, ?_⟩
      · intro j' hj'
        rcases List.mem_cons.1 hj' with rfl | hj'
        · rw [h3 _ hne, if_neg hh, hf _ List.mem_cons_self]
        · exact h2 j' hj'
      · intro q hq
        exact h3 q fun j' hj' => hq j' (List.mem_cons_of_mem _ hj')
      · intro r
        rw [h4]
        constructor
        · rintro (h | ⟨j', hj', h⟩)
          · exact .inl h
          · exact .inr ⟨j', List.mem_cons_of_mem _ hj', h⟩
        · rintro (h | ⟨j', hj', h1, h2, h3⟩)
          · exact .inl h
          · rcases List.mem_cons.1 hj' with rfl | hj'
            · rw [h2] at hh; exact absurd h3 hh
            · exact .inr ⟨j', hj', h1, h2, h3⟩

theorem update_nil (d : List (Loc × ℚ)) (hn : (d.map Prod.fst).Nodup) : Char.update [] d = d := by
  have : ∀ (d : List (Loc × ℚ)) (acc : Char), (acc.map Prod.fst ++ d.map Prod.fst).Nodup → Char.update acc d = acc ++ d := by
    intro d
    induction d with
    | nil => intro acc _; simp [Char.update]
    | cons kv d ih =>
      intro acc h
      have hk : kv.1 ∉ Dict.keys acc := fun hc => (List.nodup_append.1 h).2.2 _ hc _ (by simp) rfl
      have : Char.update acc (kv :: d) = Char.update (Dict.set acc kv.1 kv.2) d := rfl
      rw [this, Dict.set_of_not_mem acc _ hk, ih]
      · simp
      · simpa [List.append_assoc] using h
  have := this d [] (by simpa using hn)
  simpa using this

/-- what the reader makes of a factor: the same numbers -/
theorem entry_perm {values : Bool} {st : State Q} (hv : values = true) {q : Q} {c : Char}
    (hp : Plain st) (hc : st.chars.get? q = some c) (hnd : (Dict.keys c).Nodup) (b : JC Q) (hs : SameC (serializeC values st.ref q c) b) :
    (JC.entry b).Perm c := by
  subst hv
  unfold JC.entry
  rw [← hs.isRef]
  simp only [serializeC]
  by_cases hr : st.ref = some q
  · have := hp.ref q hr
    rw [hc] at this
    cases this
    simp only [hr, decide_true, if_true]
    exact .refl _
  · simp only [hr, decide_false, Bool.false_eq_true, if_false]
    have hv := hs.value
    simp only [serializeC, hr, if_false, if_true] at hv
    cases hg : Dict.get? c .glo with
    | some v =>
      have hl := hp.other q c hc ⟨v, hg⟩
      have hval : c.value = .num v := by unfold Char.value; rw [hg]
      rw [hval] at hv
      rcases hv with hv | ⟨x, y, hx, -⟩
      · rw [← hv]
        obtain ⟨⟨k, w⟩, rfl⟩ := List.length_eq_one_iff.1 hl
        simp only [Dict.get?] at hg
        split at hg
        · rename_i h; cases hg; subst h; exact .refl _
        · cases hg
      · cases hx
    | none =>
      have hl := hp.regional q c hc hg
      match c, hl, hg, hnd, hv with
      | [], _, _, _, hv =>
        rcases hv with hv | ⟨x, y, hx, -⟩
        · have : b.value = .none := hv.symm
          rw [this]
        · have : (Arg.none) = .dict x := hx
          cases this
      | [a], hl, _, _, _ => exact absurd rfl hl
      | a :: b' :: c, _, hg, hnd, hv =>
        have hval : Char.value (a :: b' :: c) = .dict (a :: b' :: c) := by unfold Char.value; rw [hg]
        rw [hval] at hv
        have key : ∀ w, (a :: b' :: c).Perm w → (Char.update [] w).Perm (a :: b' :: c) := by
          intro w hw
          rw [update_nil w ((hw.map Prod.fst).nodup_iff.1 hnd)]
          exact hw.symm
        rcases hv with hv | ⟨x, y, hx, hy, hxy⟩
        · rw [← hv]; exact key _ (.refl _)
        · cases hx; rw [hy]; exact key _ hxy

theorem getItem_perm {c d : Char} (h : c.Perm d) (hn : (Dict.keys c).Nodup) (l : Loc) : Char.getItem c l = Char.getItem d l := by
  have hg : ∀ k, Dict.get? c k = Dict.get? d k := by
    intro k
    have hn' : (Dict.keys d).Nodup := (h.map Prod.fst).nodup_iff.1 hn
    cases hk : Dict.get? c k with
    | some v => exact (Dict.get?_eq_some_of_mem d hn' (h.mem_iff.1 (Dict.mem_of_get?_eq_some _ hk))).symm
    | none =>
      rw [eq_comm, ← Dict.not_mem_keys_iff]
      rw [← Dict.not_mem_keys_iff] at hk
      exact fun hc => hk ((h.map Prod.fst).mem_iff.2 hc)
  unfold Char.getItem
  simp only [hg, h.length_eq]

/-- C105: the flow read has the reference quantity and all the factors of the flow written, for every quantity and every place, as
long as factors are global, or given for at least two regions and not globally, and the archive has the quantities. -/
theorem flow_reload_partial {st : State Q} (hreach : Reach st) (hp : Plain st) (has : Q → Bool)
    (hhas : ∀ q ∈ st.chars.keys, has q = true) (hasComp : Bool) (j : List (JC Q)) (hj : SameF (serializeF true true st) j) :
    ∃ st', loadFlow has hasComp j = .ok () st' ∧ st'.ref = st.ref ∧ (∀ q, q ∈ st'.chars.keys ↔ q ∈ st.chars.keys) ∧
      ∀ q l, cf st' q l = cf st q l := by
  obtain ⟨hI, hnd⟩ := reach_inv hreach
  obtain ⟨l, hl, hlj⟩ := hj
  have hser : serializeF true true st = st.chars.map fun qc => serializeC true st.ref qc.1 qc.2 := by
    unfold serializeF; simp
  rw [hser] at hl
  have hq : (j.map JC.quantity).Perm st.chars.keys := by
    have h1 : j.map JC.quantity = l.map JC.quantity := by
      clear hl
      induction hlj with
      | nil => rfl
      | cons h _ ih => rw [List.map_cons, List.map_cons, ih, h.quantity]
    rw [h1]
    have := (hl.map JC.quantity).symm
    rw [List.map_map] at this
    exact this
  have hfrom : ∀ x ∈ j, ∃ c, st.chars.get? x.quantity = some c ∧ SameC (serializeC true st.ref x.quantity c) x := by
    intro x hx
    have : ∃ y ∈ l, SameC y x := by
      clear hl hq
      induction hlj with
      | nil => cases hx
      | cons h _ ih =>
        rcases List.mem_cons.1 hx with rfl | hx
        · exact ⟨_, List.mem_cons_self, h⟩
        · obtain ⟨y, hy, hyx⟩ := ih hx
          exact ⟨y, List.mem_cons_of_mem _ hy, hyx⟩
    obtain ⟨y, hy, hyx⟩ := this
    obtain ⟨⟨q, c⟩, hqc, rfl⟩ := List.mem_map.1 (hl.mem_iff.2 hy)
    have hqx : q = x.quantity := hyx.quantity
    subst hqx
    exact ⟨c, Dict.get?_eq_some_of_mem _ hnd hqc, hyx⟩
  have hnj : (j.map JC.quantity).Nodup := hq.nodup_iff.2 hnd
  have hisRef : ∀ x ∈ j, x.isRef = true ↔ st.ref = some x.quantity := by
    intro x hx
    obtain ⟨c, -, hs⟩ := hfrom x hx
    rw [← hs.isRef]
    simp [serializeC]
  obtain ⟨st', h1, h2, h3, h4⟩ := loadChars_spec (has := has) j (new none hasComp) hnj (fun _ _ => rfl)
    (by
      intro x hx hr
      obtain ⟨c, -, hs⟩ := hfrom x hx
      have := hs.value
      rw [hisRef x hx] at hr
      simp only [serializeC, hr, if_true] at this
      rcases this with h | ⟨v, w, h, -⟩
      · exact h.symm
      · cases h)
    (fun x hx hr => ⟨rfl, fun x' hx' hr' => by
      rw [hisRef x hx] at hr
      rw [hisRef x' hx', hr] at hr'
      exact (Option.some.inj hr').symm⟩)
  have hmem : ∀ q c, st.chars.get? q = some c → ∃ x ∈ j, x.quantity = q := by
    intro q c hqc
    have := hq.mem_iff.2 ((Dict.mem_keys_iff _ _).2 ⟨c, hqc⟩)
    obtain ⟨x, hx, h⟩ := List.mem_map.1 this
    exact ⟨x, hx, h⟩
  have hget : ∀ q c, st.chars.get? q = some c → ∃ c', st'.chars.get? q = some c' ∧ c'.Perm c := by
    intro q c hqc
    obtain ⟨x, hx, rfl⟩ := hmem q c hqc
    obtain ⟨c', hc', hs⟩ := hfrom x hx
    rw [hqc] at hc'
    cases hc'
    refine ⟨x.entry, ?_, entry_perm rfl hp hqc (hI _ _ hqc) x hs⟩
    rw [h2 x hx, if_pos (hhas _ ((Dict.mem_keys_iff _ _).2 ⟨c, hqc⟩))]
  have hnone : ∀ q, st.chars.get? q = none → st'.chars.get? q = none := by
    intro q hqn
    rw [h3 q]
    · rfl
    · intro x hx hxq
      obtain ⟨c, hc, -⟩ := hfrom x hx
      rw [hxq, hqn] at hc
      cases hc
  refine ⟨st', h1, ?_, ?_, ?_⟩
  · have : ∀ r, st'.ref = some r ↔ st.ref = some r := by
      intro r
      rw [h4]
      constructor
      · rintro (h | ⟨x, hx, hr, rfl, -⟩)
        · cases h
        · exact (hisRef x hx).1 hr
      · intro h
        obtain ⟨x, hx, rfl⟩ := hmem r _ (hp.ref r h)
        exact .inr ⟨x, hx, (hisRef x hx).2 h, rfl, hhas _ ((Dict.mem_keys_iff _ _).2 ⟨_, hp.ref _ h⟩)⟩
    cases hr : st.ref with
    | none =>
      cases hr' : st'.ref with
      | none => rfl
      | some r => rw [this, hr] at hr'; cases hr'
    | some r => exact (this r).2 hr
  · intro q
    rw [Dict.mem_keys_iff, Dict.mem_keys_iff]
    constructor
    · rintro ⟨c, hc⟩
      cases hq' : st.chars.get? q with
      | some c => exact ⟨c, rfl⟩
      | none => rw [hnone q hq'] at hc; cases hc
    · rintro ⟨c, hc⟩
      obtain ⟨c', hc', -⟩ := hget q c hc
      exact ⟨c', hc'⟩
  · intro q l
    unfold cf
    cases hq' : st.chars.get? q with
    | none => rw [hnone q hq']
    | some c =>
      obtain ⟨c', hc', hperm⟩ := hget q c hq'
      rw [hc']
      exact getItem_perm hperm ((hperm.map Prod.fst).nodup_iff.2 (hI q c hq')) l

/-! ### concrete cases -/

/-- what the reader makes of a flow written completely, by an archive with the quantities `has` -/
def again (has : ℕ → Bool) (st : State ℕ) : Out (State ℕ) Err Unit := loadFlow has true (serializeF true true st)

/-- reference quantity 0; quantity 1 with a global factor, 2 with factors for two regions, 3 without values -/
def exF : State ℕ := (step (.addChar 3 false .none false none) (step (.addChar 2 false (.num 7) false (some (.other "CN")))
  (step (.addChar 2 false (.num 6) false (some (.other "US"))) (step (.addChar 1 false (.num 2) false none) (new (some 0) true)).2).2).2).2

example : Reach exF := .call _ (.call _ (.call _ (.call _ (.new _ _))))
example : Plain exF := by
  have h : exF.chars = [(0, [(.glo, 1)]), (1, [(.glo, 2)]), (2, [(.other "US", 6), (.other "CN", 7)]), (3, [])] := by decide +kernel
  refine ⟨?_, ?_, ?_⟩
  · intro r hr
    have : exF.ref = some 0 := by decide +kernel
    rw [this] at hr
    cases hr
    decide +kernel
  · intro q c hq
    have := Dict.mem_of_get?_eq_some _ hq
    rw [h] at this
    simp only [List.mem_cons, Prod.mk.injEq, List.not_mem_nil, or_false] at this
    rintro ⟨v, hv⟩
    rcases this with ⟨-, rfl⟩ | ⟨-, rfl⟩ | ⟨-, rfl⟩ | ⟨-, rfl⟩
    · rfl
    · rfl
    · simp [Dict.get?] at hv
    · simp [Dict.get?] at hv
  · intro q c hq
    have := Dict.mem_of_get?_eq_some _ hq
    rw [h] at this
    simp only [List.mem_cons, Prod.mk.injEq, List.not_mem_nil, or_false] at this
    intro hv
    rcases this with ⟨-, rfl⟩ | ⟨-, rfl⟩ | ⟨-, rfl⟩ | ⟨-, rfl⟩
    · simp [Dict.get?] at hv
    · simp [Dict.get?] at hv
    · decide
    · decide
example : (again (fun _ => true) exF).error? = none ∧ cf (again (fun _ => true) exF).state 2 (.other "CN") = .num 7 ∧
    cf (again (fun _ => true) exF).state 1 (.other "CN") = .num 2 ∧ (again (fun _ => true) exF).state.ref = some 0 := by decide +kernel

/-- the factor of a region is lost if there is a global one: the flow read answers with the global factor -/
theorem flow_reload_loses_region : ∃ st : State ℕ, Reach st ∧ cf st 1 (.other "US") = .num 4 ∧
    (again (fun _ => true) st).error? = none ∧ cf (again (fun _ => true) st).state 1 (.other "US") = .num 2 :=
  ⟨(step (.addChar 1 false (.num 4) false (some (.other "US"))) (step (.addChar 1 false (.num 2) false none) (new (some 0) true)).2).2,
    .call _ (.call _ (.new _ _)), by decide +kernel, by decide +kernel, by decide +kernel⟩

/-- the factor of a single region becomes global: it applies to places where the flow written has factor zero -/
theorem flow_reload_spreads_region : ∃ st : State ℕ, Reach st ∧ cf st 1 (.other "CN") = .num 0 ∧
    (again (fun _ => true) st).error? = none ∧ cf (again (fun _ => true) st).state 1 (.other "CN") = .num 4 :=
  ⟨(step (.addChar 1 false (.num 4) false (some (.other "US"))) (new (some 0) true)).2,
    .call _ (.new _ _), by decide +kernel, by decide +kernel, by decide +kernel⟩

/-- a reference quantity that was set without a characterisation is lost -/
theorem flow_reload_loses_reference : ∃ st : State ℕ, Reach st ∧ st.ref = some 0 ∧
    (again (fun _ => true) st).error? = none ∧ (again (fun _ => true) st).state.ref = none :=
  ⟨(step (.setReference 0) (new none true)).2, .call _ (.new _ _), by decide +kernel, by decide +kernel, by decide +kernel⟩

/-- a quantity the archive does not have is dropped without an error, the reference quantity too -/
theorem flow_reload_drops_quantity : ∃ st : State ℕ, Reach st ∧ Plain st ∧ st.ref = some 0 ∧
    (again (fun _ => false) st).error? = none ∧ (again (fun _ => false) st).state.ref = none := by
  refine ⟨new (some 0) true, .new _ _, ?_, by decide +kernel, by decide +kernel, by decide +kernel⟩
  have h : (new (some 0) true : State ℕ).chars = [(0, [(.glo, 1)])] := by decide +kernel
  have hc : ∀ q c, (new (some 0) true : State ℕ).chars.get? q = some c → c = [(.glo, 1)] := by
    intro q c hq
    have := Dict.mem_of_get?_eq_some _ hq
    rw [h] at this
    simp only [List.mem_cons, Prod.mk.injEq, List.not_mem_nil, or_false] at this
    exact this.2
  refine ⟨?_, ?_, ?_⟩
  · intro r hr
    have : (new (some 0) true : State ℕ).ref = some 0 := by decide +kernel
    rw [this] at hr
    cases hr
    decide +kernel
  · intro q c hq _; rw [hc q c hq]; rfl
  · intro q c hq hg; rw [hc q c hq] at hg; simp [Dict.get?] at hg

end Flo
