import Mathlib.Tactic.ByContra
import Mathlib.Tactic.Tauto
import Mathlib.Order.Basic
import Mathlib.Data.Nat.Basic
import Verif.Model.Archive

/-!
Properties C17 (entities are not replaced), C18 (counts), C19 (upstream archives) and C21 (children) of archives.
-/

set_option linter.unusedSectionVars false

namespace Arc
variable {U E K R : Type} [DecidableEq U] [DecidableEq E] [DecidableEq K] [DecidableEq R]

/-! ### specification -/

/-- the states of an archive: any calls, raising or not, with any contents of the entities at the time of each call,
except that the type and the uuid of an entity are fixed and a set origin is not unset -/
inductive Reach (c : Cfg U K R) (kind : E → Kind) (uuid : E → U) : State U E R → Prop
  | new (origin : Dict E R) : Reach c kind uuid { origin := origin }
  | call (H : Heap U E K) (hk : H.kind = kind) (hu : H.uuid = uuid) (op : Op E) {st : State U E R} :
      Reach c kind uuid st → Reach c kind uuid (step c H op st).2

/-- the states that can follow a state -/
inductive Later (c : Cfg U K R) (kind : E → Kind) (uuid : E → U) : State U E R → State U E R → Prop
  | refl (st : State U E R) : Later c kind uuid st st
  | call (H : Heap U E K) (hk : H.kind = kind) (hu : H.uuid = uuid) (op : Op E) {st st' : State U E R} :
      Later c kind uuid st st' → Later c kind uuid st (step c H op st').2

/-- the entity is stored under its uuid -/
def Has (H : Heap U E K) (st : State U E R) (e : E) : Prop := st.ents.get? (H.uuid e) = some e

/-! ### what `add` does -/

/-- the state after storing -/
def stored (H : Heap U E K) (e : E) (o : Dict E R) (st : State U E R) : State U E R :=
  { ents := st.ents.set (H.uuid e) e
    byType := st.byType.set (H.kind e) (PySet.add ((st.byType.get? (H.kind e)).getD []) (H.uuid e))
    origin := o }

theorem add_cases (c : Cfg U K R) (H : Heap U E K) (e : E) (st : State U E R) :
    (∃ err, add c H e st = .err err st ∧ (err = .keyError → ∃ e', st.ents.get? (H.uuid e) = some e')) ∨
    (∃ o, add c H e st = .ok () (stored H e o st) ∧ st.ents.get? (H.uuid e) = none ∧ H.kind e ∈ c.kinds ∧
      (∀ x, st.origin.get? x ≠ none → o.get? x ≠ none) ∧ o.get? e ≠ none) := by
  unfold add addKey
  split
  · left; exact ⟨_, rfl, by simp⟩
  · rename_i hk
    split
    · rename_i hh
      left
      exact ⟨_, rfl, fun _ => (Dict.mem_keys_iff _ _).mp ((Dict.has_iff _ _).mp hh)⟩
    · rename_i hh
      have hnone : st.ents.get? (H.uuid e) = none := by
        by_contra hc
        obtain ⟨w, hw⟩ := Option.ne_none_iff_exists'.mp hc
        exact hh ((Dict.has_iff _ _).mpr ((Dict.mem_keys_iff _ _).mpr ⟨w, hw⟩))
      split
      · simp only
        cases ho : st.origin.get? e with
        | some r => right; exact ⟨st.origin, rfl, hnone, by simpa using hk, fun x h => h, by simp [ho]⟩
        | none =>
          simp only
          split
          · right
            refine ⟨st.origin.set e c.ref, rfl, hnone, by simpa using hk, ?_, ?_⟩
            · intro x hx
              rw [Dict.get?_set]
              split
              · simp
              · exact hx
            · simp [Dict.get?_set]
          · left; exact ⟨_, rfl, by simp⟩
      · left; exact ⟨_, rfl, by simp⟩

/-! ### relations kept by all calls -/

section rel
variable (c : Cfg U K R) (H : Heap U E K) (P : State U E R → State U E R → Prop)
  (hrefl : ∀ st, P st st) (htrans : ∀ s t u, P s t → P t u → P s u) (hadd : ∀ e st, P st (add c H e st).state)
include hrefl htrans hadd

theorem forEach_rel {α : Type} (f : α → State U E R → Out (State U E R) Err Unit) (hf : ∀ a st, P st (f a st).state)
    (l : List α) (st : State U E R) : P st (forEach f l st).state := by
  induction l generalizing st with
  | nil => exact hrefl st
  | cons a l ih =>
    unfold forEach
    have h1 := hf a st
    cases h : f a st with
    | err e s => rw [h] at h1; exact h1
    | ok u s => rw [h] at h1; exact htrans _ _ _ h1 (ih s)

theorem addWith_rel (ch : State U E R → Out (State U E R) Err Unit) (hch : ∀ st, P st (ch st).state) (e : E)
    (st : State U E R) : P st (addWith c H ch e st).state := by
  have h1 := hadd e st
  unfold addWith
  cases h : add c H e st with
  | err err s => rw [h] at h1; cases err <;> exact h1
  | ok u s => rw [h] at h1; exact htrans _ _ _ h1 (hch s)

theorem addTree_rel (e : E) (st : State U E R) : P st (addTree c H e st).state := by
  have hq : ∀ e st, P st (addQuantity c H e st).state :=
    fun e st => addWith_rel c H P hrefl htrans hadd (fun st => .ok () st) (fun s => hrefl s) e st
  have hf : ∀ e st, P st (addFlow c H e st).state :=
    fun e st => addWith_rel c H P hrefl htrans hadd _
      (fun s => forEach_rel c H P hrefl htrans hadd _ hq _ s) e st
  unfold addTree
  split
  · exact hq e st
  · exact hf e st
  · exact addWith_rel c H P hrefl htrans hadd _ (fun s => forEach_rel c H P hrefl htrans hadd _ hf _ s) e st
  · exact addWith_rel c H P hrefl htrans hadd (fun st => .ok () st) (fun s => hrefl s) e st

theorem step_rel (op : Op E) (st : State U E R) : P st (step c H op st).2 := by
  cases op with
  | add e => exact hadd e st
  | addTree e => exact addTree_rel c H P hrefl htrans hadd e st
  | load es => exact forEach_rel c H P hrefl htrans hadd _ hadd es st

end rel

/-- what is stored stays stored -/
def Grows (st st' : State U E R) : Prop := ∀ u e, st.ents.get? u = some e → st'.ents.get? u = some e

theorem grows_add (c : Cfg U K R) (H : Heap U E K) (e : E) (st : State U E R) : Grows st (add c H e st).state := by
  rcases add_cases c H e st with ⟨err, h, _⟩ | ⟨o, h, hn, _⟩
  · rw [h]; exact fun u e h => h
  · rw [h]
    intro u e' hu
    simp only [Out.state, stored, Dict.get?_set]
    split
    · rename_i heq; rw [← heq, hn] at hu; cases hu
    · exact hu

theorem grows_trans (s t u : State U E R) (h1 : Grows s t) (h2 : Grows t u) : Grows s u :=
  fun k e h => h2 k e (h1 k e h)

theorem grows_step (c : Cfg U K R) (H : Heap U E K) (op : Op E) (st : State U E R) : Grows st (step c H op st).2 :=
  step_rel c H Grows (fun _ _ _ h => h) grows_trans (grows_add c H) op st

/-! ### C17 -/

/-- C17: an entity once found under a key is found under it ever after (in an archive without upstream). -/
theorem entity_kept {c : Cfg U K R} {kind : E → Kind} {uuid : E → U} {st st' : State U E R}
    (h : Later c kind uuid st st') (key : K) {e : E} (he : getItem c st key = some e) : getItem c st' key = some e := by
  have hg : Grows st st' := by
    induction h with
    | refl => exact fun _ _ h => h
    | call H _ _ op _ ih => exact grows_trans _ _ _ (ih he) (grows_step c H op _)
  unfold getItem at *
  cases hk : c.keyToId key with
  | none => rw [hk] at he; cases he
  | some u => rw [hk] at he; exact hg u e he

/-- C17: an entity of an accepted type whose uuid is taken is refused with KeyError and nothing changes. -/
theorem taken_refused (c : Cfg U K R) (H : Heap U E K) (e e' : E) (st : State U E R) (hk : H.kind e ∈ c.kinds)
    (he : st.ents.get? (H.uuid e) = some e') : add c H e st = .err .keyError st := by
  unfold add addKey
  rw [if_neg (by simpa using hk), if_pos ((Dict.has_iff _ _).mpr ((Dict.mem_keys_iff _ _).mpr ⟨e', he⟩))]

/-- C17: a call of `add` that raises changes nothing, and one that returns stores the entity under its uuid. -/
theorem add_outcome (c : Cfg U K R) (H : Heap U E K) (e : E) (st : State U E R) :
    (∃ err, add c H e st = .err err st) ∨ ∃ st', add c H e st = .ok () st' ∧ Has H st' e ∧ Grows st st' ∧
      ∀ u, u ≠ H.uuid e → st'.ents.get? u = st.ents.get? u := by
  rcases add_cases c H e st with ⟨err, h, _⟩ | ⟨o, h, hn, _⟩
  · exact Or.inl ⟨err, h⟩
  · right
    refine ⟨_, h, by simp [Has, stored, Dict.get?_set], ?_, ?_⟩
    · have := grows_add c H e st; rw [h] at this; exact this
    · intro u hu
      simp only [stored, Dict.get?_set]
      rw [if_neg (Ne.symm hu)]

/-! ### the invariant -/

structure Inv (kind : E → Kind) (uuid : E → U) (st : State U E R) : Prop where
  nodup : st.ents.keys.Nodup
  key : ∀ u e, st.ents.get? u = some e → uuid e = u
  typeNodup : ∀ k, ((st.byType.get? k).getD []).Nodup
  type : ∀ k u, u ∈ (st.byType.get? k).getD [] ↔ ∃ e, st.ents.get? u = some e ∧ kind e = k
  origin : ∀ u e, st.ents.get? u = some e → st.origin.get? e ≠ none

theorem inv_add (c : Cfg U K R) (H : Heap U E K) (e : E) (st : State U E R) (h : Inv H.kind H.uuid st) :
    Inv H.kind H.uuid (add c H e st).state := by
  rcases add_cases c H e st with ⟨err, h', _⟩ | ⟨o, h', hn, _, ho, hoe⟩
  · rw [h']; exact h
  · rw [h']
    simp only [Out.state, stored]
    refine ⟨Dict.nodup_keys_set _ _ _ h.nodup, ?_, ?_, ?_, ?_⟩
    · intro u e' hu
      simp only [Dict.get?_set] at hu
      split at hu
      · rename_i heq; cases hu; exact heq
      · exact h.key u e' hu
    · intro k
      simp only [Dict.get?_set]
      split
      · exact PySet.nodup_add (h.typeNodup _)
      · exact h.typeNodup k
    · intro k u
      simp only [Dict.get?_set]
      by_cases hku : H.uuid e = u
      · subst hku
        rw [if_pos rfl]
        by_cases hkk : H.kind e = k
        · rw [if_pos hkk]
          simp only [Option.getD_some, PySet.mem_add]
          constructor
          · intro _; exact ⟨e, rfl, hkk⟩
          · intro _; right; trivial
        · rw [if_neg hkk, h.type]
          constructor
          · rintro ⟨e', he', _⟩; rw [hn] at he'; cases he'
          · rintro ⟨e', he', hk'⟩; cases he'; exact absurd hk' hkk
      · rw [if_neg hku]
        by_cases hkk : H.kind e = k
        · rw [if_pos hkk]
          simp only [Option.getD_some, PySet.mem_add]
          subst hkk
          rw [h.type]
          constructor
          · rintro (h1 | h1)
            · exact h1
            · exact absurd h1.symm hku
          · intro h1; exact Or.inl h1
        · rw [if_neg hkk]; exact h.type k u
    · intro u e' hu
      simp only [Dict.get?_set] at hu
      split at hu
      · cases hu; exact hoe
      · exact ho _ (h.origin u e' hu)

theorem reach_inv {c : Cfg U K R} {kind : E → Kind} {uuid : E → U} {st : State U E R} (h : Reach c kind uuid st) :
    Inv kind uuid st := by
  induction h with
  | new o => constructor <;> simp [Dict.keys]
  | call H hk hu op _ ih =>
    subst hk hu
    exact step_rel c H (fun s t => Inv H.kind H.uuid s → Inv H.kind H.uuid t) (fun _ h => h)
      (fun _ _ _ h1 h2 h => h2 (h1 h)) (fun e st h => inv_add c H e st h) op _ ih

/-- every stored entity has an origin (so looking one up changes nothing) -/
theorem stored_origin {c : Cfg U K R} {kind : E → Kind} {uuid : E → U} {st : State U E R} (h : Reach c kind uuid st)
    (key : K) {e : E} (he : getItem c st key = some e) : st.origin.get? e ≠ none := by
  unfold getItem at he
  cases hk : c.keyToId key with
  | none => rw [hk] at he; cases he
  | some u => rw [hk] at he; exact (reach_inv h).origin u e he

/-! ### C18 -/

/-- C18: `entities_by_type(t)` yields the stored entities of type t, each once and in the order of their uuids, and
`count_by_type(t)` is their number. -/
theorem count_by_type [LinearOrder U] {c : Cfg U K R} {kind : E → Kind} {uuid : E → U} {st : State U E R}
    (h : Reach c kind uuid st) (t : Kind) :
    ∃ l : List E, entitiesByType st t = l.map some ∧ l.Nodup ∧
      (∀ e, e ∈ l ↔ kind e = t ∧ ∃ u, st.ents.get? u = some e) ∧
      l.Pairwise (fun a b => uuid a < uuid b) ∧
      countByType st t = l.length ∧
      l.length = (st.ents.filter fun ue => decide (kind ue.2 = t)).length := by
  have hI := reach_inv h
  have key : ∀ us : List U, (∀ u ∈ us, ∃ e, st.ents.get? u = some e ∧ kind e = t) →
      ∃ l : List E, us.map st.ents.get? = l.map some ∧ l.map uuid = us := by
    intro us
    induction us with
    | nil => intro _; exact ⟨[], rfl, rfl⟩
    | cons u us ih =>
      intro hall
      obtain ⟨e, he, _⟩ := hall u List.mem_cons_self
      obtain ⟨l, h1, h2⟩ := ih fun u' hu' => hall u' (List.mem_cons_of_mem _ hu')
      exact ⟨e :: l, by simp [he, h1], by simp [hI.key u e he, h2]⟩
  let us := ((st.byType.get? t).getD []).insertionSort (· ≤ ·)
  have hperm : us.Perm ((st.byType.get? t).getD []) := List.perm_insertionSort _ _
  have hus : ∀ u, u ∈ us ↔ ∃ e, st.ents.get? u = some e ∧ kind e = t := by
    intro u; rw [hperm.mem_iff]; exact hI.type t u
  have hnd : us.Nodup := hperm.nodup_iff.mpr (hI.typeNodup t)
  obtain ⟨l, hl, hlu⟩ := key us fun u hu => (hus u).mp hu
  have hmem : ∀ e, e ∈ l ↔ kind e = t ∧ ∃ u, st.ents.get? u = some e := by
    intro e
    have h1 : e ∈ l ↔ some e ∈ us.map st.ents.get? := by rw [hl]; simp
    rw [h1, List.mem_map]
    constructor
    · rintro ⟨u, hu, he⟩
      obtain ⟨e', he', hk⟩ := (hus u).mp hu
      rw [he] at he'; cases he'
      exact ⟨hk, u, he⟩
    · rintro ⟨hk, u, he⟩
      exact ⟨u, (hus u).mpr ⟨e, he, hk⟩, he⟩
  have hlen : countByType st t = l.length := by
    have h1 : l.length = us.length := by rw [← hlu]; simp
    rw [h1, hperm.length_eq]; rfl
  have hndl : l.Nodup := by
    apply List.Nodup.of_map uuid
    rw [hlu]; exact hnd
  refine ⟨l, hl, hndl, hmem, ?_, hlen, ?_⟩
  · have hs : us.Pairwise (· ≤ ·) := List.pairwise_insertionSort _ _
    have hlt : us.Pairwise (· < ·) := by
      have hnd' : us.Pairwise (· ≠ ·) := hnd
      exact (hs.and hnd').imp fun h => lt_of_le_of_ne h.1 h.2
    rw [← hlu] at hlt
    exact (List.pairwise_map.mp hlt)
  · have hp : (st.ents.filter fun ue => decide (kind ue.2 = t)).map (·.2) |>.Perm l := by
      rw [List.perm_ext_iff_of_nodup]
      · intro e
        rw [hmem, List.mem_map]
        constructor
        · rintro ⟨⟨u, e'⟩, hm, rfl⟩
          rw [List.mem_filter] at hm
          exact ⟨by simpa using hm.2, u, Dict.get?_eq_some_of_mem _ hI.nodup hm.1⟩
        · rintro ⟨hk, u, hu⟩
          exact ⟨(u, e), List.mem_filter.mpr ⟨Dict.mem_of_get?_eq_some _ hu, by simpa using hk⟩, rfl⟩
      · apply List.Nodup.of_map uuid
        have h1 : ((st.ents.filter fun ue => decide (kind ue.2 = t)).map (·.2)).map uuid =
            (st.ents.filter fun ue => decide (kind ue.2 = t)).map (·.1) := by
          rw [List.map_map]
          apply List.map_congr_left
          rintro ⟨u, e⟩ hm
          exact hI.key u e (Dict.get?_eq_some_of_mem _ hI.nodup (List.mem_filter.mp hm).1)
        rw [h1]
        exact (List.filter_sublist.map _).nodup hI.nodup
      · exact hndl
    have := hp.length_eq
    simpa using this.symm

/-! ### C21 -/

/-- exchanges are of flows and characterisations of quantities (asserted by their constructors, exchanges.py:37,
characterizations.py:25) -/
def WellTyped (H : Heap U E K) : Prop :=
  (∀ p, ∀ f ∈ H.flows p, H.kind f = .flow) ∧ (∀ f, ∀ q ∈ H.quants f, H.kind q = .quantity)

/-- what a stored entity mentions is stored; entities in `X` are exempted -/
def Closed (H : Heap U E K) (X : E → Prop) (st : State U E R) : Prop :=
  ∀ u e, st.ents.get? u = some e → ¬ X e →
    (H.kind e = .flow → ∀ q ∈ H.quants e, Has H st q) ∧ (H.kind e = .process → ∀ f ∈ H.flows e, Has H st f)

variable {c : Cfg U K R} {H : Heap U E K}

theorem has_grows {st st' : State U E R} (h : Grows st st') {e : E} (he : Has H st e) : Has H st' e := h _ _ he

theorem closed_grows {X : E → Prop} {st st' : State U E R} (h : Closed H X st) (hg : Grows st st')
    (hnew : ∀ u e, st'.ents.get? u = some e → st.ents.get? u = some e ∨ X e ∨ H.kind e = .quantity) :
    Closed H X st' := by
  intro u e he hx
  rcases hnew u e he with h1 | h1 | h1
  · obtain ⟨h2, h3⟩ := h u e h1 hx
    exact ⟨fun hk q hq => has_grows hg (h2 hk q hq), fun hk f hf => has_grows hg (h3 hk f hf)⟩
  · exact absurd h1 hx
  · rw [h1]; simp

/-- what `add` within `add_entity_and_children` achieves -/
theorem add_tree_step (hinj : Function.Injective H.uuid) {st : State U E R} (hI : Inv H.kind H.uuid st) (e : E) :
    (add c H e st = .err .keyError st ∧ Has H st e) ∨ (∃ err, add c H e st = .err err st ∧ err ≠ .keyError) ∨
    ∃ st', add c H e st = .ok () st' ∧ Has H st' e ∧ Grows st st' ∧ Inv H.kind H.uuid st' ∧
      ∀ u x, st'.ents.get? u = some x → st.ents.get? u = some x ∨ x = e := by
  rcases add_cases c H e st with ⟨err, h, hk⟩ | ⟨o, h, hn, _⟩
  · by_cases he : err = .keyError
    · left
      subst he
      obtain ⟨e', he'⟩ := hk rfl
      have := hinj (hI.key _ _ he')
      subst this
      exact ⟨h, he'⟩
    · right; left; exact ⟨err, h, he⟩
  · right; right
    refine ⟨_, h, by simp [Has, stored, Dict.get?_set], ?_, ?_, ?_⟩
    · have := grows_add c H e st; rw [h] at this; exact this
    · have := inv_add c H e st hI; rw [h] at this; exact this
    · intro u x hx
      simp only [stored, Dict.get?_set] at hx
      split at hx
      · cases hx; right; rfl
      · left; exact hx

theorem addQuantity_ok (hinj : Function.Injective H.uuid) {X : E → Prop} {st st' : State U E R} {q : E}
    (hI : Inv H.kind H.uuid st) (hk : H.kind q = .quantity) (hC : Closed H X st)
    (h : addQuantity c H q st = .ok () st') :
    Closed H X st' ∧ Has H st' q ∧ Grows st st' ∧ Inv H.kind H.uuid st' := by
  unfold addQuantity addWith at h
  rcases add_tree_step (c := c) hinj hI q with ⟨h1, h2⟩ | ⟨err, h1, h2⟩ | ⟨st1, h1, h2, h3, h4, h5⟩
  · rw [h1] at h; cases h; exact ⟨hC, h2, fun _ _ h => h, hI⟩
  · rw [h1] at h; cases err <;> first | exact absurd rfl h2 | cases h
  · rw [h1] at h; cases h
    refine ⟨closed_grows hC h3 ?_, h2, h3, h4⟩
    intro u x hx
    rcases h5 u x hx with h6 | h6
    · exact Or.inl h6
    · right; right; rw [h6]; exact hk

theorem forEach_ok {α : Type} {f : α → State U E R → Out (State U E R) Err Unit} {I : State U E R → Prop}
    {G : State U E R → α → Prop} (hG : ∀ st st' a, Grows st st' → G st a → G st' a) (l : List α)
    (hf : ∀ a ∈ l, ∀ st st', I st → f a st = .ok () st' → I st' ∧ G st' a ∧ Grows st st')
    {st st' : State U E R} (hI : I st) (h : forEach f l st = .ok () st') :
    I st' ∧ (∀ a ∈ l, G st' a) ∧ Grows st st' := by
  induction l generalizing st with
  | nil => unfold forEach at h; cases h; exact ⟨hI, by simp, fun _ _ h => h⟩
  | cons a l ih =>
    unfold forEach at h
    cases ha : f a st with
    | err e s => rw [ha] at h; cases h
    | ok u s =>
      rw [ha] at h
      obtain ⟨h1, h2, h3⟩ := hf a List.mem_cons_self st s hI ha
      obtain ⟨h4, h5, h6⟩ := ih (fun a' ha' => hf a' (List.mem_cons_of_mem _ ha')) h1 h
      refine ⟨h4, ?_, grows_trans _ _ _ h3 h6⟩
      intro a' ha'
      rcases List.mem_cons.mp ha' with rfl | ha'
      · exact hG _ _ _ h6 h2
      · exact h5 a' ha'

theorem addFlow_ok (hinj : Function.Injective H.uuid) (hwt : WellTyped H) {X : E → Prop} {st st' : State U E R} {f : E}
    (hI : Inv H.kind H.uuid st) (hk : H.kind f = .flow) (hC : Closed H X st)
    (h : addFlow c H f st = .ok () st') :
    Closed H X st' ∧ Has H st' f ∧ Grows st st' ∧ Inv H.kind H.uuid st' := by
  unfold addFlow addWith at h
  rcases add_tree_step (c := c) hinj hI f with ⟨h1, h2⟩ | ⟨err, h1, h2⟩ | ⟨st1, h1, h2, h3, h4, h5⟩
  · rw [h1] at h; cases h; exact ⟨hC, h2, fun _ _ h => h, hI⟩
  · rw [h1] at h; cases err <;> first | exact absurd rfl h2 | cases h
  · rw [h1] at h
    simp only at h
    have hC1 : Closed H (fun x => X x ∨ x = f) st1 := by
      intro u e he hx
      rcases h5 u e he with h6 | h6
      · have := hC u e h6 (fun hX => hx (Or.inl hX))
        exact ⟨fun hk q hq => has_grows h3 (this.1 hk q hq), fun hk f hf => has_grows h3 (this.2 hk f hf)⟩
      · exact absurd (Or.inr h6) hx
    obtain ⟨⟨h6, h7⟩, h8, h9⟩ := forEach_ok (I := fun s => Closed H (fun x => X x ∨ x = f) s ∧ Inv H.kind H.uuid s)
      (G := fun s q => Has H s q) (fun _ _ _ hg hh => has_grows hg hh) (H.quants f)
      (fun q hq s s' hs hok => by
        obtain ⟨a1, a2, a3, a4⟩ := addQuantity_ok hinj hs.2 (hwt.2 f q hq) hs.1 hok
        exact ⟨⟨a1, a4⟩, a2, a3⟩) ⟨hC1, h4⟩ h
    refine ⟨?_, has_grows h9 h2, grows_trans _ _ _ h3 h9, h7⟩
    intro u e he hx
    by_cases hef : e = f
    · subst hef
      exact ⟨fun _ => h8, fun hk' => by rw [hk] at hk'; cases hk'⟩
    · exact h6 u e he (by rintro (h | h); exacts [hx h, hef h])

theorem addProcess_ok (hinj : Function.Injective H.uuid) (hwt : WellTyped H) {X : E → Prop} {st st' : State U E R} {p : E}
    (hI : Inv H.kind H.uuid st) (hk : H.kind p = .process) (hC : Closed H X st)
    (h : addProcess c H p st = .ok () st') :
    Closed H X st' ∧ Has H st' p ∧ Grows st st' ∧ Inv H.kind H.uuid st' := by
  unfold addProcess addWith at h
  rcases add_tree_step (c := c) hinj hI p with ⟨h1, h2⟩ | ⟨err, h1, h2⟩ | ⟨st1, h1, h2, h3, h4, h5⟩
  · rw [h1] at h; cases h; exact ⟨hC, h2, fun _ _ h => h, hI⟩
  · rw [h1] at h; cases err <;> first | exact absurd rfl h2 | cases h
  · rw [h1] at h
    simp only at h
    have hC1 : Closed H (fun x => X x ∨ x = p) st1 := by
      intro u e he hx
      rcases h5 u e he with h6 | h6
      · have := hC u e h6 (fun hX => hx (Or.inl hX))
        exact ⟨fun hk q hq => has_grows h3 (this.1 hk q hq), fun hk f hf => has_grows h3 (this.2 hk f hf)⟩
      · exact absurd (Or.inr h6) hx
    obtain ⟨⟨h6, h7⟩, h8, h9⟩ := forEach_ok (I := fun s => Closed H (fun x => X x ∨ x = p) s ∧ Inv H.kind H.uuid s)
      (G := fun s q => Has H s q) (fun _ _ _ hg hh => has_grows hg hh) (H.flows p)
      (fun q hq s s' hs hok => by
        obtain ⟨a1, a2, a3, a4⟩ := addFlow_ok hinj hwt hs.2 (hwt.1 p q hq) hs.1 hok
        exact ⟨⟨a1, a4⟩, a2, a3⟩) ⟨hC1, h4⟩ h
    refine ⟨?_, has_grows h9 h2, grows_trans _ _ _ h3 h9, h7⟩
    intro u e he hx
    by_cases hep : e = p
    · subst hep
      exact ⟨fun hk' => (by rw [hk] at hk'; cases hk'), fun _ => h8⟩
    · exact h6 u e he (by rintro (h | h); exacts [hx h, hep h])

/-- an archive in which everything mentioned by a stored entity is stored -/
def Complete (H : Heap U E K) (st : State U E R) : Prop := Closed H (fun _ => False) st

/-- C21: in a complete archive, after `add_entity_and_children(e)` returns, e is stored, the archive is complete again
and nothing stored before has changed. -/
theorem add_children_partial (hinj : Function.Injective H.uuid) (hwt : WellTyped H) {st st' : State U E R}
    (hr : Reach c H.kind H.uuid st) (hC : Complete H st) {e : E} (hfr : H.kind e ≠ .fragment)
    (h : addTree c H e st = .ok () st') : Complete H st' ∧ Has H st' e ∧ Grows st st' := by
  have hI := reach_inv hr
  unfold addTree at h
  cases hk : H.kind e with
  | quantity =>
    rw [hk] at h
    obtain ⟨h1, h2, h3, _⟩ := addQuantity_ok hinj hI hk hC h
    exact ⟨h1, h2, h3⟩
  | flow =>
    rw [hk] at h
    obtain ⟨h1, h2, h3, _⟩ := addFlow_ok hinj hwt hI hk hC h
    exact ⟨h1, h2, h3⟩
  | process =>
    rw [hk] at h
    obtain ⟨h1, h2, h3, _⟩ := addProcess_ok hinj hwt hI hk hC h
    exact ⟨h1, h2, h3⟩
  | fragment => exact absurd hk hfr

/-- C21 spelled out for a process: its flows and the quantities of its flows can be retrieved by their uuids. -/
theorem add_process_partial (hinj : Function.Injective H.uuid) (hwt : WellTyped H) {st st' : State U E R}
    (hr : Reach c H.kind H.uuid st) (hC : Complete H st) {p : E} (hk : H.kind p = .process)
    (h : addTree c H p st = .ok () st') :
    Has H st' p ∧ (∀ f ∈ H.flows p, Has H st' f ∧ ∀ q ∈ H.quants f, Has H st' q) ∧ Grows st st' := by
  obtain ⟨h1, h2, h3⟩ := add_children_partial hinj hwt hr hC (by rw [hk]; simp) h
  refine ⟨h2, ?_, h3⟩
  intro f hf
  have hf' := (h1 _ _ h2 (fun h => h)).2 hk f hf
  exact ⟨hf', (h1 _ _ hf' (fun h => h)).1 (hwt.1 p f hf)⟩

/-- C21: histories of `add_entity_and_children` calls that return, on an empty archive -/
theorem add_children_history (hinj : Function.Injective H.uuid) (hwt : WellTyped H) (o : Dict E R)
    (es : List E) (hfr : ∀ e ∈ es, H.kind e ≠ .fragment) {st' : State U E R}
    (h : forEach (addTree c H) es { origin := o } = .ok () st') :
    Complete H st' ∧ ∀ e ∈ es, Has H st' e := by
  have h0 : Reach c H.kind H.uuid ({ origin := o } : State U E R) := .new o
  have hC0 : Complete H ({ origin := o } : State U E R) := by intro u e he; simp at he
  obtain ⟨h1, h2, _⟩ := forEach_ok (I := fun s => Reach c H.kind H.uuid s ∧ Complete H s)
    (G := fun s e => Has H s e) (fun _ _ _ hg hh => has_grows hg hh) es
    (fun e he s s' hs hok => by
      obtain ⟨a1, a2, a3⟩ := add_children_partial hinj hwt hs.1 hs.2 (hfr e he) hok
      refine ⟨⟨?_, a1⟩, a2, a3⟩
      have := Reach.call H rfl rfl (.addTree e) hs.1
      simp only [step, hok, Out.state] at this
      exact this) ⟨h0, hC0⟩ h
  exact ⟨h1.2, h2⟩

/-! #### cases -/

/-- entities: process 0 with flows 1 and 2; flow 1 with quantities 3 and 4, flow 2 with quantity 3. -/
def exH : Heap ℕ ℕ ℕ where
  kind := fun e => if e = 0 then .process else if e ≤ 2 then .flow else .quantity
  uuid := fun e => e + 10
  valid := fun _ => true
  ext := fun e => e + 10
  flows := fun e => if e = 0 then [1, 2] else []
  quants := fun e => if e = 1 then [3, 4] else if e = 2 then [3] else []

/-- an LcArchive -/
def exC : Cfg ℕ ℕ ℕ := ⟨[.quantity, .flow, .process], some, 7⟩

example : WellTyped exH := by
  refine ⟨?_, ?_⟩
  · intro p f hf
    simp only [exH] at hf ⊢
    split at hf
    · simp at hf; rcases hf with rfl | rfl <;> rfl
    · simp at hf
  · intro f q hq
    simp only [exH] at hq ⊢
    split at hq
    · simp at hq; rcases hq with rfl | rfl <;> rfl
    · split at hq
      · simp at hq; subst hq; rfl
      · simp at hq
example : Function.Injective exH.uuid := fun a b h => by simpa [exH] using h
example : (addTree exC exH 0 {}).error? = none ∧
    (addTree exC exH 0 {}).state.ents = [(10, 0), (11, 1), (13, 3), (14, 4), (12, 2)] ∧
    countByType (addTree exC exH 0 {}).state .flow = 2 ∧
    entitiesByType (addTree exC exH 0 {}).state .flow = [some 1, some 2] := by decide +kernel
-- a second entity with uuid 10 is refused
example : (add exC { exH with uuid := fun _ => 10 } 5 (addTree exC exH 0 {}).state).error? = some .keyError := by
  decide +kernel

/-- C21 fails when an earlier attempt has raised: the first call stores the process and then raises because flow 1 is
invalid; once the flow is put right the call returns at once and adds nothing. -/
theorem retry_adds_nothing : ∃ st : State ℕ ℕ ℕ, Reach exC exH.kind exH.uuid st ∧
    addTree exC exH 0 st = .ok () st ∧ 1 ∈ exH.flows 0 ∧ st.ents.get? (exH.uuid 1) = none := by
  refine ⟨(step exC { exH with valid := fun e => decide (e ≠ 1) } (.addTree 0) {}).2,
    Reach.call (c := exC) (kind := exH.kind) (uuid := exH.uuid) { exH with valid := fun e => decide (e ≠ 1) }
      rfl rfl (.addTree 0) (.new []), ?_, by decide, by decide +kernel⟩
  rfl

/-- C21 fails when a stored flow has got a new characterisation: flow 1 is stored when it has quantity 3 only; adding
the process later leaves quantity 4 out. -/
theorem stale_flow : ∃ st st' : State ℕ ℕ ℕ, Reach exC exH.kind exH.uuid st ∧
    addTree exC exH 0 st = .ok () st' ∧ 1 ∈ exH.flows 0 ∧ 4 ∈ exH.quants 1 ∧ st'.ents.get? (exH.uuid 4) = none := by
  refine ⟨(step exC { exH with quants := fun e => if e = 1 then [3] else [] } (.addTree 1) {}).2, _,
    Reach.call (c := exC) (kind := exH.kind) (uuid := exH.uuid)
      { exH with quants := fun e => if e = 1 then [3] else [] } rfl rfl (.addTree 1) (.new []), rfl, by decide, by decide, by decide +kernel⟩

/-! ### C19 -/

/-- `l` is the archive a with all its upstream archives, in order -/
inductive Chain (w : World U E K) : ℕ → List ℕ → Prop
  | top {a : ℕ} : w.up a = none → Chain w a [a]
  | up {a b : ℕ} {l : List ℕ} : w.up a = some b → Chain w b l → Chain w a (a :: l)

/-- what an archive itself has under a key -/
def World.local (w : World U E K) (key : K) (a : ℕ) : Option E := (w.keyToId a key).bind (w.ents a).get?

/-- C19: if the chain of upstream archives ends, then `archive[key]` is the entity of the most upstream archive that
knows the key, and None if none does. -/
theorem upstream_first (w : World U E K) (key : K) {a : ℕ} {l : List ℕ} (h : Chain w a l) (fuel : ℕ)
    (hf : l.length ≤ fuel) : w.getItem key fuel a = .ok (l.reverse.findSome? (w.local key)) := by
  induction h generalizing fuel with
  | @top a hu =>
    cases fuel with
    | zero => simp at hf
    | succ n => simp [World.getItem, hu, World.local]
  | @up a b l hu _ ih =>
    cases fuel with
    | zero => simp at hf
    | succ n =>
      have := ih n (by simpa using hf)
      unfold World.getItem
      simp only [hu, this, List.reverse_cons, List.findSome?_append]
      cases l.reverse.findSome? (w.local key) with
      | some e => rfl
      | none => simp [World.local]

/-- C19, one step: the upstream's answer if it has one, else the local entity. -/
theorem upstream_precedence (w : World U E K) (key : K) {a b : ℕ} {l : List ℕ} (hu : w.up a = some b)
    (h : Chain w b l) : ∃ r, (∀ fuel, l.length < fuel → w.getItem key fuel b = .ok r) ∧
      ∀ fuel, l.length < fuel → w.getItem key fuel a = .ok (match r with
        | some e => some e
        | none => w.local key a) := by
  refine ⟨_, fun fuel hf => upstream_first w key h fuel (by omega), ?_⟩
  intro fuel hf
  rw [upstream_first w key (.up hu h) fuel (by simp only [List.length_cons]; omega)]
  simp only [List.reverse_cons, List.findSome?_append]
  cases l.reverse.findSome? (w.local key) with
  | some e => rfl
  | none => simp

/-- otherwise (an archive is upstream of itself) every lookup ends in RecursionError -/
theorem upstream_cycle (w : World U E K) (key : K) {a : ℕ} (h : ∀ l, ¬ Chain w a l) (fuel : ℕ) :
    w.getItem key fuel a = .error .recursionError := by
  induction fuel generalizing a with
  | zero => rfl
  | succ n ih =>
    unfold World.getItem
    cases hu : w.up a with
    | none => exact absurd (.top hu) (h _)
    | some b =>
      have := ih (a := b) fun l hl => h _ (.up hu hl)
      simp [this]

/-- C17 with upstream archives: adding to the archive itself changes no answer it has given. -/
theorem entity_kept_upstream (w w' : World U E K) (key : K) {a : ℕ} {l : List ℕ} (h : Chain w a (a :: l)) (ha : a ∉ l)
    (hup : w'.up = w.up) (hk : w'.keyToId = w.keyToId) (hothers : ∀ b, b ≠ a → w'.ents b = w.ents b)
    (hg : ∀ u e, (w.ents a).get? u = some e → (w'.ents a).get? u = some e) (fuel : ℕ) (hf : l.length < fuel) {e : E}
    (he : w.getItem key fuel a = .ok (some e)) : w'.getItem key fuel a = .ok (some e) := by
  have hch : ∀ {b : ℕ} {m : List ℕ}, Chain w b m → Chain w' b m := by
    intro b m hbm
    induction hbm with
    | top hu => exact .top (by rw [hup]; exact hu)
    | up hu _ ih => exact .up (by rw [hup]; exact hu) ih
  rw [upstream_first w key h fuel (by simp only [List.length_cons]; omega)] at he
  rw [upstream_first w' key (hch h) fuel (by simp only [List.length_cons]; omega)]
  have heq : l.reverse.findSome? (w'.local key) = l.reverse.findSome? (w.local key) := by
    have hmem : ∀ b ∈ l.reverse, w'.local key b = w.local key b := by
      intro b hb
      have hb' : b ≠ a := by rintro rfl; exact ha (by simpa using hb)
      unfold World.local
      rw [hk, hothers b hb']
    generalize l.reverse = m at hmem
    induction m with
    | nil => rfl
    | cons b m ih =>
      simp only [List.findSome?_cons, hmem b List.mem_cons_self]
      rw [ih fun b' hb' => hmem b' (List.mem_cons_of_mem _ hb')]
  simp only [List.reverse_cons, List.findSome?_append, heq] at he ⊢
  cases hm : l.reverse.findSome? (w.local key) with
  | some e' => rw [hm] at he; simpa using he
  | none =>
    rw [hm] at he
    simp only [Option.none_or, List.findSome?_cons, List.findSome?_nil] at he ⊢
    have hloc : w.local key a = some e := by
      cases hl : w.local key a with
      | none => rw [hl] at he; simp at he
      | some e' => rw [hl] at he; simpa using he
    have hloc' : w'.local key a = some e := by
      unfold World.local at *
      rw [hk]
      cases hu : w.keyToId a key with
      | none => rw [hu] at hloc; cases hloc
      | some u => rw [hu] at hloc; exact hg u e hloc
    rw [hloc']

/-- C17 fails with upstream archives: when an entity is added upstream, the archive below it returns that one for a
key under which it has returned its own before. -/
theorem upstream_replaces : ∃ (w w' : World ℕ ℕ ℕ) (st : State ℕ ℕ ℕ), w.up 0 = some 1 ∧ w.up 1 = none ∧
    w.ents 1 = st.ents ∧ w'.ents 1 = (add exC exH 3 st).state.ents ∧ (∀ b, b ≠ 1 → w'.ents b = w.ents b) ∧
    w'.up = w.up ∧ w'.keyToId = w.keyToId ∧
    w.getItem 13 9 0 = .ok (some 99) ∧ w'.getItem 13 9 0 = .ok (some 3) := by
  refine ⟨⟨fun a => if a = 0 then [(13, 99)] else [], fun _ => some, fun a => if a = 0 then some 1 else none⟩,
    ⟨fun a => if a = 0 then [(13, 99)] else if a = 1 then (add exC exH 3 {}).state.ents else [],
      fun _ => some, fun a => if a = 0 then some 1 else none⟩, {}, rfl, rfl, rfl, rfl, ?_, rfl, rfl, ?_, ?_⟩
  · intro b hb
    simp [hb]
  · decide +kernel
  · decide +kernel

-- a chain of three archives; key 5 is known to 1 and 2, key 6 only to 0
example : let w : World ℕ ℕ ℕ := ⟨fun a => if a = 0 then [(6, 60), (5, 50)] else if a = 1 then [(5, 51)] else [(5, 52)],
      fun _ => some, fun a => if a < 2 then some (a + 1) else none⟩
    Chain w 0 [0, 1, 2] ∧ w.getItem 5 3 0 = .ok (some 52) ∧ w.getItem 6 3 0 = .ok (some 60) := by
  refine ⟨.up (by rfl) (.up (by rfl) (.top (by rfl))), ?_, ?_⟩ <;> decide +kernel

end Arc
