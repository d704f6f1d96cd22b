import Verif.Props.Catalog

/-!
Entities of the catalog: `get` on a query (C93), its answers over histories (C94), `lookup` and `fetch` (C95), `query` (C96),
nicknames (C97).
-/

set_option linter.unusedSectionVars false

namespace Cat
open Rsv (Str Res Listed Hits Provides)

variable {A E : Type} [DecidableEq A]

/-! ### the specification -/

/-- the resource is registered for the origin or below it -/
def Below (st : St A E) (origin : Str) (r : Res A) : Prop := ∃ ref, Listed st.rsv ref r ∧ Hits origin ref false

/-- the archive of the resource has this entity under the identifier -/
def Has (w : World A E) (r : Res A) (eid : Str) (e : E) : Prop := ∃ a, w.arch r = .ok a ∧ a.fetch eid = .ok (some e)

/-- the archive of the resource has none -/
def Lacks (w : World A E) (r : Res A) (eid : Str) : Prop :=
  ∃ a, w.arch r = .ok a ∧ (a.fetch eid = .ok none ∨ a.fetch eid = .error .entityNotFound)

/-- the resource can be loaded, has the basic interface, and looking for the identifier raises nothing -/
def Quiet (w : World A E) (r : Res A) (eid : Str) : Prop :=
  ∃ a v, w.arch r = .ok a ∧ "basic" ∈ a.ifaces ∧ a.fetch eid = .ok v

theorem candidate_basic (st : St A E) (origin : Str) (r : Res A) : Candidate st origin (.one "basic") false r ↔ Below st origin r := by
  unfold Candidate Below Provides
  constructor
  · rintro ⟨ref, h1, h2, -⟩; exact ⟨ref, h1, h2⟩
  · rintro ⟨ref, h1, h2⟩
    refine ⟨ref, h1, h2, ?_⟩
    intro l hl
    cases hl
    exact ⟨"basic", by simp [Itype.names], .inl rfl⟩

theorem says_has {w : World A E} {t : Itype} {r : Res A} {eid : Str} {e : E} (h : Says w t (fun a => a.fetch eid) r (.ok (some e))) :
    Has w r eid e := by
  obtain ⟨a, h1, _, h2⟩ := h
  exact ⟨a, h1, h2⟩

theorem passes_lacks {w : World A E} {t : Itype} {r : Res A} {eid : Str}
    (h : Passes w t .entityNotFound (fun a => a.fetch eid) r) : Lacks w r eid := by
  rcases h with ⟨a, h1, _, h2⟩ | ⟨a, h1, _, h2⟩
  · exact ⟨a, h1, .inl h2⟩
  · exact ⟨a, h1, .inr h2⟩

/-! ### C93: get -/

/-- C93: what `get` returns for an identifier it was not asked before is the entity of a resource registered for the origin or below
it, and the resources that come sooner do not have the entity. -/
theorem get_first (w : World A E) (st : St A E) (q : ℕ) (o : Qry E) (eid : Str) (e : E) (st' : St A E)
    (ho : st.objs.get? q = some o) (hnew : o.cache.get? eid = none) (h : get w st q eid = .ok e st') :
    ∃ r, Below st o.origin r ∧ Has w r eid e ∧ ∀ r', Below st o.origin r' → Sooner w st o.origin r' r → Lacks w r' eid := by
  unfold get at h
  rw [ho] at h
  dsimp only at h
  rw [hnew] at h
  dsimp only at h
  cases hp : performQuery w st o.origin (.one "basic") false .entityNotFound (fun a => a.fetch eid) with
  | err x s => rw [hp] at h; cases h
  | ok v s =>
    rw [hp] at h
    simp only [Out.bind] at h
    obtain ⟨rfl, -⟩ : v = e ∧ _ := by
      injection h with h1 h2
      exact ⟨h1, h2⟩
    obtain ⟨r, h1, h2, h3⟩ := query_answer w st o.origin _ _ _ _ v s hp
    refine ⟨r, (candidate_basic st _ r).1 h1, says_has h2, fun r' hb hs => ?_⟩
    exact passes_lacks (h3 r' ((candidate_basic st _ r').2 hb) hs)

/-- C93: if nothing raises, then `get` finds the entity exactly if a resource at or below the origin has it. -/
theorem get_iff_partial (w : World A E) (st : St A E) (q : ℕ) (o : Qry E) (eid : Str) (ho : st.objs.get? q = some o)
    (hnew : o.cache.get? eid = none) (hone : ∃ r, Below st o.origin r) (hq : ∀ r, Below st o.origin r → Quiet w r eid) :
    ((∃ e st', get w st q eid = .ok e st') ↔ ∃ r e, Below st o.origin r ∧ Has w r eid e) ∧
    ((∃ st', get w st q eid = .err .entityNotFound st') ↔ ¬ ∃ r e, Below st o.origin r ∧ Has w r eid e) := by
  have hall : ∀ r, Candidate st o.origin (.one "basic") false r →
      Passes w (.one "basic") .entityNotFound (fun a => a.fetch eid) r ∨
        ∃ v, Says w (.one "basic") (fun a => a.fetch eid) r (.ok (some v)) := by
    intro r hr
    obtain ⟨a, v, h1, h2, h3⟩ := hq r ((candidate_basic st _ r).1 hr)
    have hi : makeInterface a (.one "basic") = .ok () := by simp [makeInterface, h2]
    cases v with
    | none => exact .inl (.inl ⟨a, h1, hi, h3⟩)
    | some v => exact .inr ⟨v, a, h1, hi, h3⟩
  obtain ⟨r0, hr0⟩ := hone
  obtain ⟨hc1, hc2⟩ := query_complete_partial w st o.origin (.one "basic") false .entityNotFound (fun a => a.fetch eid) hall
    ⟨r0, (candidate_basic st _ r0).2 hr0⟩
  have yes : (∃ r e, Below st o.origin r ∧ Has w r eid e) → ∃ e st', get w st q eid = .ok e st' := by
    rintro ⟨r, e, hb, a, h1, h2⟩
    obtain ⟨a', v', h1', h2', h3'⟩ := hq r hb
    rw [h1] at h1'
    cases h1'
    obtain ⟨v, s, hv⟩ := hc1 ⟨r, e, (candidate_basic st _ r).2 hb, a, h1, by simp [makeInterface, h2'], h2⟩
    have hg : get w st q eid = .ok v { s with objs := s.objs.set q { o with cache := o.cache.set eid v } } := by
      unfold get
      rw [ho]
      dsimp only
      rw [hnew]
      dsimp only
      rw [hv]
      rfl
    exact ⟨v, _, hg⟩
  have no : (¬ ∃ r e, Below st o.origin r ∧ Has w r eid e) → ∃ st', get w st q eid = .err .entityNotFound st' := by
    intro h
    obtain ⟨s, hs⟩ := hc2 (by
      intro r hr
      rcases hall r hr with h' | ⟨v, hv⟩
      · exact h'
      · exact absurd ⟨r, v, (candidate_basic st _ r).1 hr, says_has hv⟩ h)
    refine ⟨s, ?_⟩
    unfold get
    rw [ho]
    dsimp only
    rw [hnew]
    dsimp only
    rw [hs]
    rfl
  refine ⟨⟨?_, yes⟩, ⟨?_, no⟩⟩
  · rintro ⟨e, st', h⟩
    obtain ⟨r, h1, h2, -⟩ := get_first w st q o eid e st' ho hnew h
    exact ⟨r, e, h1, h2⟩
  · rintro ⟨st', h⟩ hex
    obtain ⟨e, s, h'⟩ := yes hex
    rw [h] at h'
    cases h'

/-! ### histories -/

/-- what a user can do with a catalog -/
inductive Op (A : Type)
  | add (r : Res A) (store : Bool)
  | del (r : Res A)
  | has (r : Res A)
  | nick (source : Option Str) (name : Str)
  | query (origin : Str) (strict refresh : Bool)
  | get (q : ℕ) (eid : Str)
  | item (q : ℕ) (eid item : Str)
  | ask (origin : Str) (t : Itype) (strict : Bool)
  | lookup (origin eid : Str)
  | fetch (origin eid : Str)
  | secure (q : ℕ) (t : Itype) (strict : Bool)

variable {P : Type}

/-- the state afterwards, whether the operation returned or raised. `ask` stands for the other queries: `call` is what they ask of an
archive, `x` the exception -/
def step (prop : Face E P) (w : World A E) (x : Exc) (call : Arch E → Except Exc (Option P)) (st : St A E) : Op A → St A E
  | .add r store => { st with rsv := (Rsv.addResource st.rsv r store).state }
  | .del r => { st with rsv := (Rsv.deleteResource st.rsv r).state }
  | .has r => { st with rsv := (Rsv.hasResource st.rsv r).state }
  | .nick s n => (addNickname st s n).state
  | .query o s f => (query st o s f).state
  | .get q eid => (Cat.get w st q eid).state
  | .item q eid it => (getItem prop w st q eid it).state
  | .ask o t s => (performQuery w st o t s x call).state
  | .lookup o e => (Cat.lookup w st o e).state
  | .fetch o e => (Cat.fetch w st o e).state
  | .secure q t s => (Cat.secure w st q t s).state

/-- the state after a history -/
def run (prop : Face E P) (w : World A E) (x : Exc) (call : Arch E → Except Exc (Option P)) (st : St A E) (ops : List (Op A)) :
    St A E := ops.foldl (step prop w x call) st

/-- an empty catalog -/
def empty : St A E := ⟨⟨[], []⟩, [], [], [], [], 0⟩

/-- what holds between operations -/
structure Inv (w : World A E) (st : St A E) : Prop where
  own : ∀ ref r, Listed st.rsv ref r → r.ref = ref
  kept : ∀ o n, st.queries.get? o = some n → ∃ c, st.objs.get? n = some ⟨o, c⟩
  fresh : ∀ n, st.next ≤ n → st.objs.get? n = none
  sound : ∀ n o eid e, st.objs.get? n = some o → o.cache.get? eid = some e → ∃ r, Hits o.origin r.ref false ∧ Has w r eid e

/-- query objects stay, and so does what they know -/
def Stays (st st' : St A E) : Prop :=
  ∀ n o, st.objs.get? n = some o → ∃ c, st'.objs.get? n = some ⟨o.origin, c⟩ ∧ ∀ eid e, o.cache.get? eid = some e → c.get? eid = some e

theorem Stays.refl (st : St A E) : Stays st st := fun _ o h => ⟨o.cache, h, fun _ _ h => h⟩

theorem Stays.trans {a b c : St A E} (h : Stays a b) (h' : Stays b c) : Stays a c := by
  intro n o ho
  obtain ⟨c1, h1, h2⟩ := h n o ho
  obtain ⟨c2, h3, h4⟩ := h' n _ h1
  exact ⟨c2, h3, fun eid e he => h4 eid e (h2 eid e he)⟩

/-- operations that only load archives -/
theorem Inv.grows {w : World A E} {st st' : St A E} (h : Inv w st) (g : Grows st st') : Inv w st' ∧ Stays st st' := by
  rw [g.1]
  exact ⟨⟨h.own, h.kept, h.fresh, h.sound⟩, Stays.refl st⟩

/-! #### the registry -/

theorem mem_set {K V : Type} [DecidableEq K] {d : Dict K V} {k : K} {v : V} {p : K × V} (h : p ∈ d.set k v) : p = (k, v) ∨ p ∈ d := by
  induction d with
  | nil => simp only [Dict.set, List.mem_singleton] at h; exact .inl h
  | cons a d ih =>
    obtain ⟨k', v'⟩ := a
    unfold Dict.set at h
    split at h
    · rename_i e
      subst e
      rcases List.mem_cons.1 h with h | h
      · exact .inl h
      · exact .inr (List.mem_cons_of_mem _ h)
    · rcases List.mem_cons.1 h with h | h
      · exact .inr (by simp [h])
      · rcases ih h with h | h
        · exact .inl h
        · exact .inr (List.mem_cons_of_mem _ h)

theorem mem_of_mem_del {K V : Type} [DecidableEq K] {d : Dict K V} {k : K} {p : K × V} (h : p ∈ d.del k) : p ∈ d := by
  induction d with
  | nil => exact h
  | cons a d ih =>
    obtain ⟨k', v'⟩ := a
    unfold Dict.del at h
    split at h
    · exact List.mem_cons_of_mem _ (ih h)
    · rcases List.mem_cons.1 h with h | h
      · simp [h]
      · exact List.mem_cons_of_mem _ (ih h)

def Own (st : Rsv.St A) : Prop := ∀ ref r, Listed st ref r → r.ref = ref

theorem own_touch {m : Dict Str (List (Res A))} {d : Rsv.Dir A} (ref : Str) (h : Own ⟨m, d⟩) : Own ⟨Rsv.touch m ref, d⟩ := by
  unfold Rsv.touch
  split
  · exact h
  · rintro k r ⟨rs, h1, h2⟩
    rcases mem_set h1 with h1 | h1
    · cases h1; simp at h2
    · exact h k r ⟨rs, h1, h2⟩

theorem listOf_listed {m : Dict Str (List (Res A))} {d : Rsv.Dir A} {ref : Str} {r : Res A} (h : r ∈ Rsv.listOf m ref) :
    Listed ⟨m, d⟩ ref r := by
  unfold Rsv.listOf at h
  cases hg : m.get? ref with
  | none => rw [hg] at h; simp at h
  | some rs => rw [hg] at h; exact ⟨rs, Dict.mem_of_get?_eq_some _ hg, h⟩

theorem own_add {st : Rsv.St A} (h : Own st) (r : Res A) (store : Bool) : Own (Rsv.addResource st r store).state := by
  unfold Rsv.addResource
  split
  · exact h
  · exact h
  · unfold Rsv.hasResource
    dsimp only
    have ht := own_touch r.ref h
    split
    · exact ht
    · rename_i b _
      simp only [Out.bind]
      cases b with
      | true => exact ht
      | false =>
        have ha : ∀ d, Own (⟨Rsv.append (Rsv.touch st.mem r.ref) r, d⟩ : Rsv.St A) := by
          rintro d k x ⟨rs, h1, h2⟩
          unfold Rsv.append at h1
          rcases mem_set h1 with h1 | h1
          · cases h1
            rcases List.mem_append.1 h2 with h2 | h2
            · exact ht _ x (listOf_listed h2)
            · simp at h2; rw [h2]
          · exact ht k x ⟨rs, h1, h2⟩
        unfold Rsv.register
        simp only [Bool.false_eq_true, if_false]
        split
        · split
          · exact ht
          · exact ha _
        · exact ha _

theorem own_del {st : Rsv.St A} (h : Own st) (r : Res A) : Own (Rsv.deleteResource st r).state := by
  unfold Rsv.deleteResource
  dsimp only
  have hs : ∀ d, Own (⟨st.mem.set r.ref ((Rsv.listOf st.mem r.ref).erase r), d⟩ : Rsv.St A) := by
    rintro d k x ⟨rs, h1, h2⟩
    rcases mem_set h1 with h1 | h1
    · cases h1; exact h _ x (listOf_listed (List.mem_of_mem_erase h2))
    · exact h k x ⟨rs, h1, h2⟩
  split
  · split
    · exact hs _
    · split
      · rintro k x ⟨rs, h1, h2⟩
        exact h k x ⟨rs, mem_of_mem_del h1, h2⟩
      · exact hs _
  · exact own_touch r.ref h

theorem own_has {st : Rsv.St A} (h : Own st) (r : Res A) : Own (Rsv.hasResource st r).state := by
  unfold Rsv.hasResource
  dsimp only
  split <;> exact own_touch r.ref h

/-! #### queries -/

theorem query_inv {w : World A E} {st : St A E} (h : Inv w st) (o : Str) (s f : Bool) :
    Inv w (query st o s f).state ∧ Stays st (query st o s f).state := by
  unfold query
  split
  · exact ⟨h, Stays.refl st⟩
  · exact ⟨h, Stays.refl st⟩
  · split
    · exact ⟨h, Stays.refl st⟩
    · simp only [Out.state]
      have hne : ∀ n q, st.objs.get? n = some q → st.next ≠ n := by
        intro n q hq e
        rw [h.fresh n (by omega)] at hq
        cases hq
      refine ⟨⟨h.own, ?_, ?_, ?_⟩, ?_⟩
      · intro k n hk
        unfold newQuery at hk ⊢
        dsimp only at hk ⊢
        by_cases e : o = k
        · subst e
          rw [Dict.get?_set_self] at hk
          cases hk
          exact ⟨[], by rw [Dict.get?_set_self]⟩
        · rw [Dict.get?_set_ne _ _ e] at hk
          obtain ⟨c, hc⟩ := h.kept k n hk
          exact ⟨c, by rw [Dict.get?_set_ne _ _ (hne n _ hc)]; exact hc⟩
      · intro n hn
        unfold newQuery at hn ⊢
        dsimp only at hn ⊢
        rw [Dict.get?_set_ne _ _ (by omega)]
        exact h.fresh n (by omega)
      · intro n q eid e hq he
        unfold newQuery at hq
        dsimp only at hq
        by_cases en : st.next = n
        · subst en
          rw [Dict.get?_set_self] at hq
          cases hq
          simp [Dict.get?] at he
        · rw [Dict.get?_set_ne _ _ en] at hq
          exact h.sound n q eid e hq he
      · intro n q hq
        unfold newQuery
        dsimp only
        exact ⟨q.cache, by rw [Dict.get?_set_ne _ _ (hne n q hq)]; exact hq, fun _ _ h => h⟩

theorem performQuery_grows (w : World A E) (st : St A E) (o : Str) (t : Itype) (s : Bool) (x : Exc) {R : Type}
    (call : Arch E → Except Exc (Option R)) : Grows st (performQuery w st o t s x call).state := by
  unfold performQuery
  split
  · exact Grows.refl st
  · exact ask_grows w t x call _ st

theorem get_inv {w : World A E} {st : St A E} (h : Inv w st) (q : ℕ) (eid : Str) :
    Inv w (get w st q eid).state ∧ Stays st (get w st q eid).state := by
  unfold get
  split
  · exact ⟨h, Stays.refl st⟩
  · rename_i o ho
    split
    · exact ⟨h, Stays.refl st⟩
    · rename_i hnew
      have g := performQuery_grows w st o.origin (.one "basic") false .entityNotFound (fun a => a.fetch eid)
      cases hp : performQuery w st o.origin (.one "basic") false .entityNotFound (fun a => a.fetch eid) with
      | err e s => rw [hp] at g; exact h.grows g
      | ok v s =>
        rw [hp] at g
        simp only [Out.state, Out.bind] at g ⊢
        obtain ⟨r, hc, hs, -⟩ := query_answer w st o.origin _ _ _ _ v s hp
        obtain ⟨ref, hl, hh⟩ := (candidate_basic st _ r).1 hc
        have hr : Hits o.origin r.ref false := by rw [h.own ref r hl]; exact hh
        have hh : ∃ r : Res A, Hits o.origin r.ref false ∧ Has w r eid v := ⟨r, hr, says_has hs⟩
        rw [g.1]
        dsimp only
        refine ⟨⟨h.own, ?_, ?_, ?_⟩, ?_⟩
        · intro k n hk
          obtain ⟨c, hc⟩ := h.kept k n hk
          by_cases e : q = n
          · subst e
            rw [hc] at ho
            cases ho
            exact ⟨_, by dsimp only; rw [Dict.get?_set_self]⟩
          · exact ⟨c, by dsimp only; rw [Dict.get?_set_ne _ _ e]; exact hc⟩
        · intro n hn
          dsimp only at hn ⊢
          have hne : q ≠ n := by
            rintro rfl
            rw [h.fresh q hn] at ho
            cases ho
          rw [Dict.get?_set_ne _ _ hne]
          exact h.fresh n hn
        · intro n q' eid' e hq he
          dsimp only at hq
          by_cases en : q = n
          · subst en
            rw [Dict.get?_set_self] at hq
            cases hq
            dsimp only at he ⊢
            by_cases ee : eid = eid'
            · subst ee
              rw [Dict.get?_set_self] at he
              cases he
              exact hh
            · rw [Dict.get?_set_ne _ _ ee] at he
              exact h.sound q o eid' e ho he
          · rw [Dict.get?_set_ne _ _ en] at hq
            exact h.sound n q' eid' e hq he
        · intro n q' hq
          dsimp only
          by_cases en : q = n
          · subst en
            rw [ho] at hq
            cases hq
            refine ⟨_, Dict.get?_set_self .., fun eid' e he => ?_⟩
            have ee : eid ≠ eid' := by
              rintro rfl
              rw [hnew] at he
              cases he
            rw [Dict.get?_set_ne _ _ ee]
            exact he
          · exact ⟨q'.cache, by rw [Dict.get?_set_ne _ _ en]; exact hq, fun _ _ h => h⟩

theorem lookupIn_grows (w : World A E) (eid : Str) : ∀ (l : List (Res A)) (st : St A E), Grows st (lookupIn w eid l st).state := by
  intro l
  induction l with
  | nil => intro st; exact Grows.refl st
  | cons r l ih =>
    intro st
    unfold lookupIn
    split
    · rename_i hl
      rw [(load_err hl).2]
      exact Grows.refl st
    · rename_i a st1 hl
      have g := load_grows hl
      split
      · exact g
      · split
        · exact g
        · exact g
        · exact g.trans (ih st1)

theorem lookup_grows (w : World A E) (st : St A E) (o eid : Str) : Grows st (lookup w st o eid).state := by
  unfold lookup
  split
  · exact Grows.refl st
  · exact lookupIn_grows w eid _ st

theorem secureAll_grows (w : World A E) (t : Itype) : ∀ (l : List (Res A)) (st : St A E), Grows st (secureAll w t l st).state := by
  intro l
  induction l with
  | nil => intro st; exact Grows.refl st
  | cons r l ih =>
    intro st
    unfold secureAll
    split
    · rename_i hl
      rw [(load_err hl).2]
      exact Grows.refl st
    · rename_i a st1 hl
      have g := load_grows hl
      split
      · exact g
      · exact g.trans (ih st1)

theorem fetch_inv {w : World A E} {st : St A E} (h : Inv w st) (o eid : Str) :
    Inv w (fetch w st o eid).state ∧ Stays st (fetch w st o eid).state := by
  unfold fetch
  have g := lookup_grows w st o eid
  cases hl : lookup w st o eid with
  | err e s => rw [hl] at g; exact h.grows g
  | ok org s =>
    rw [hl] at g
    obtain ⟨h1, s1⟩ := h.grows g
    simp only [Out.bind, Out.state] at h1 s1 ⊢
    obtain ⟨h2, s2⟩ := query_inv h1 org false false
    cases hq : query s org false false with
    | err e s' => rw [hq] at h2 s2; exact ⟨h2, s1.trans s2⟩
    | ok q s' =>
      rw [hq] at h2 s2
      simp only [Out.state] at h2 s2 ⊢
      obtain ⟨h3, s3⟩ := get_inv h2 q eid
      exact ⟨h3, (s1.trans s2).trans s3⟩

theorem step_inv (prop : Face E P) {w : World A E} (x : Exc) (call : Arch E → Except Exc (Option P)) {st : St A E} (h : Inv w st)
    (op : Op A) : Inv w (step prop w x call st op) ∧ Stays st (step prop w x call st op) := by
  cases op with
  | add r s => exact ⟨⟨own_add h.own r s, h.kept, h.fresh, h.sound⟩, Stays.refl _⟩
  | del r => exact ⟨⟨own_del h.own r, h.kept, h.fresh, h.sound⟩, Stays.refl _⟩
  | has r => exact ⟨⟨own_has h.own r, h.kept, h.fresh, h.sound⟩, Stays.refl _⟩
  | nick s n =>
    show Inv w (addNickname st s n).state ∧ Stays st (addNickname st s n).state
    unfold addNickname
    split
    · exact ⟨⟨h.own, h.kept, h.fresh, h.sound⟩, Stays.refl _⟩
    · exact ⟨h, Stays.refl _⟩
  | query o s f => exact query_inv h o s f
  | get q eid => exact get_inv h q eid
  | item q eid it =>
    show Inv w (getItem prop w st q eid it).state ∧ Stays st (getItem prop w st q eid it).state
    unfold getItem
    split
    · exact ⟨h, Stays.refl _⟩
    · exact h.grows (performQuery_grows ..)
  | ask o t s => exact h.grows (performQuery_grows ..)
  | lookup o e => exact h.grows (lookup_grows ..)
  | fetch o e => exact fetch_inv h o e
  | secure q t s =>
    show Inv w (Cat.secure w st q t s).state ∧ Stays st (Cat.secure w st q t s).state
    unfold Cat.secure
    split
    · exact ⟨h, Stays.refl _⟩
    · split
      · exact ⟨h, Stays.refl _⟩
      · exact h.grows (secureAll_grows ..)

theorem run_inv (prop : Face E P) {w : World A E} (x : Exc) (call : Arch E → Except Exc (Option P)) (ops : List (Op A)) :
    ∀ {st : St A E}, Inv w st → Inv w (run prop w x call st ops) ∧ Stays st (run prop w x call st ops) := by
  induction ops with
  | nil => intro st h; exact ⟨h, Stays.refl st⟩
  | cons op ops ih =>
    intro st h
    obtain ⟨h1, s1⟩ := step_inv prop x call h op
    obtain ⟨h2, s2⟩ := ih h1
    exact ⟨h2, s1.trans s2⟩

theorem empty_inv (w : World A E) : Inv w (empty : St A E) where
  own := by rintro ref r ⟨rs, h, _⟩; simp [empty] at h
  kept := by intro o n h; simp [empty, Dict.get?] at h
  fresh := by intro n _; rfl
  sound := by intro n o eid e h; simp [empty, Dict.get?] at h

/-! ### C94: a query does not change its mind -/

/-- C94: once a query object has returned an entity for an identifier, it returns the same entity for it after every history of
operations on the catalog, and then does nothing. -/
theorem get_stable (prop : Face E P) (w : World A E) (x : Exc) (call : Arch E → Except Exc (Option P)) (before after : List (Op A))
    (q : ℕ) (eid : Str) (e : E) (st : St A E) (h : get w (run prop w x call empty before) q eid = .ok e st) :
    get w (run prop w x call st after) q eid = .ok e (run prop w x call st after) := by
  obtain ⟨h0, -⟩ := run_inv prop x call before (empty_inv w)
  generalize run prop w x call empty before = st0 at h h0
  have hs := get_inv h0 q eid
  rw [h] at hs
  simp only [Out.state] at hs
  -- the object knows the entity in st
  have hk : ∃ o, st.objs.get? q = some o ∧ o.cache.get? eid = some e := by
    unfold get at h
    split at h
    · cases h
    · rename_i o ho
      split at h
      · rename_i e' he
        injection h with h1 h2
        subst h1; subst h2
        exact ⟨o, ho, he⟩
      · have g := performQuery_grows w st0 o.origin (.one "basic") false .entityNotFound (fun a => a.fetch eid)
        cases hp : performQuery w st0 o.origin (.one "basic") false .entityNotFound (fun a => a.fetch eid) with
        | err x s => rw [hp] at h; cases h
        | ok v s =>
          rw [hp] at h
          simp only [Out.bind] at h
          injection h with h1 h2
          subst h1; subst h2
          exact ⟨{ o with cache := o.cache.set eid v }, Dict.get?_set_self .., Dict.get?_set_self ..⟩
  obtain ⟨o, ho, he⟩ := hk
  obtain ⟨c, hc, hce⟩ := (run_inv prop x call after hs.1).2 q o ho
  unfold get
  rw [hc]
  dsimp only
  rw [hce eid e he]

/-- C94: whatever it returns, after any history, is what some resource at or below the origin has under the identifier. -/
theorem get_sound (prop : Face E P) (w : World A E) (x : Exc) (call : Arch E → Except Exc (Option P)) (ops : List (Op A))
    (q : ℕ) (eid : Str) (e : E) (st : St A E) (h : get w (run prop w x call empty ops) q eid = .ok e st) :
    ∃ o c r, st.objs.get? q = some ⟨o, c⟩ ∧ Hits o r.ref false ∧ Has w r eid e := by
  obtain ⟨h0, -⟩ := run_inv prop x call ops (empty_inv w)
  have h' := get_stable prop w x call ops [] q eid e st h
  generalize run prop w x call empty ops = st0 at h h0
  have hs := (get_inv h0 q eid).1
  rw [h] at hs
  simp only [Out.state] at hs
  simp only [run, List.foldl_nil] at h'
  cases ho : st.objs.get? q with
  | none => unfold get at h'; rw [ho] at h'; cases h'
  | some o =>
    cases he : o.cache.get? eid with
    | some e' =>
      unfold get at h'
      rw [ho] at h'
      dsimp only at h'
      rw [he] at h'
      dsimp only at h'
      injection h' with h1 h2
      subst h1
      obtain ⟨r, h1, h2⟩ := hs.sound q o eid e' ho he
      exact ⟨o.origin, o.cache, r, rfl, h1, h2⟩
    | none =>
      obtain ⟨r, ⟨ref, hl, hh⟩, h2, -⟩ := get_first w st q o eid e st ho he h'
      exact ⟨o.origin, o.cache, r, rfl, by rw [hs.own ref r hl]; exact hh, h2⟩

/-! ### C95: lookup and fetch -/

theorem lookupIn_ok (w : World A E) (eid : Str) : ∀ (l : List (Res A)) (st : St A E) (o : Str) (st' : St A E),
    lookupIn w eid l st = .ok o st' → ∃ l₁ r l₂ a e, l = l₁ ++ r :: l₂ ∧ w.arch r = .ok a ∧ a.fetch eid = .ok (some e) ∧ a.ref = o ∧
      ∀ r' ∈ l₁, ∃ a', w.arch r' = .ok a' ∧ a'.fetch eid = .ok none := by
  intro l
  induction l with
  | nil => intro st o st' h; unfold lookupIn at h; cases h
  | cons r l ih =>
    intro st o st' h
    unfold lookupIn at h
    split at h
    · cases h
    · rename_i a st1 hl
      obtain ⟨ha, -⟩ := load_says hl
      split at h
      · cases h
      · split at h
        · cases h
        · rename_i e he
          cases h
          exact ⟨[], r, l, a, e, rfl, ha, he, rfl, by simp⟩
        · rename_i he
          obtain ⟨l₁, r₁, l₂, a₁, e₁, h1, h2, h3, h4, h5⟩ := ih st1 o st' h
          refine ⟨r :: l₁, r₁, l₂, a₁, e₁, by rw [h1]; rfl, h2, h3, h4, ?_⟩
          intro r' hr'
          rcases List.mem_cons.1 hr' with rfl | hr'
          · exact ⟨a, ha, he⟩
          · exact h5 r' hr'

theorem lookupIn_quiet (w : World A E) (eid : Str) : ∀ (l : List (Res A)) (st : St A E), (∀ r ∈ l, Quiet w r eid) →
    (∃ o st', lookupIn w eid l st = .ok o st' ∧ ∃ r ∈ l, ∃ e, Has w r eid e) ∨
    (∃ st', lookupIn w eid l st = .err .entityNotFound st' ∧ ¬ ∃ r ∈ l, ∃ e, Has w r eid e) := by
  intro l
  induction l with
  | nil => intro st _; exact .inr ⟨st, rfl, by simp⟩
  | cons r l ih =>
    intro st h
    obtain ⟨a, v, h1, h2, h3⟩ := h r (by simp)
    cases v with
    | some e =>
      refine .inl ⟨a.ref, { st with loaded := PySet.add st.loaded r.oid }, ?_, r, by simp, e, a, h1, h3⟩
      simp [lookupIn, load, h1, makeInterface, h2, h3]
    | none =>
      have e : lookupIn w eid (r :: l) st = lookupIn w eid l { st with loaded := PySet.add st.loaded r.oid } := by
        simp [lookupIn, load, h1, makeInterface, h2, h3]
      rw [e]
      rcases ih { st with loaded := PySet.add st.loaded r.oid } (fun r' hr' => h r' (by simp [hr'])) with ⟨o, s, h4, r', h5, h6⟩ | ⟨s, h4, h5⟩
      · exact .inl ⟨o, s, h4, r', by simp [h5], h6⟩
      · refine .inr ⟨s, h4, ?_⟩
        rintro ⟨r', hr', e', a', ha', he'⟩
        rcases List.mem_cons.1 hr' with rfl | hr'
        · rw [h1] at ha'
          cases ha'
          rw [h3] at he'
          cases he'
        · exact h5 ⟨r', hr', e', a', ha', he'⟩

/-- C95: the origin that `lookup` gives is that of an archive at or below the origin which has the entity; those that come sooner do
not have it. -/
theorem lookup_first (w : World A E) (st : St A E) (origin eid o : Str) (st' : St A E) (h : lookup w st origin eid = .ok o st') :
    ∃ r a e, Below st origin r ∧ w.arch r = .ok a ∧ a.fetch eid = .ok (some e) ∧ a.ref = o ∧
      ∀ r', Below st origin r' → Sooner w st origin r' r → Lacks w r' eid := by
  unfold lookup at h
  cases hs : sortedResources w st origin (.one "basic") false with
  | error e => rw [hs] at h; cases h
  | ok l =>
    rw [hs] at h
    obtain ⟨l₁, r, l₂, a, e, rfl, h1, h2, h3, h4⟩ := lookupIn_ok w eid l st o st' h
    refine ⟨r, a, e, (candidate_basic st _ r).1 ((sorted_mem w st origin _ _ _ hs r).1 (by simp)), h1, h2, h3, fun r' hb hso => ?_⟩
    obtain ⟨a', h5, h6⟩ := h4 r' (sooner_front w st origin _ _ l₁ l₂ r r' hs ((candidate_basic st _ r').2 hb) hso)
    exact ⟨a', h5, .inl h6⟩

/-- C95: if nothing raises, and archives carry the reference of their resource, then `fetch` finds an entity exactly if a resource at or
below the origin has one, after any history; otherwise it raises EntityNotFound. -/
theorem fetch_iff_partial (prop : Face E P) (w : World A E) (x : Exc) (call : Arch E → Except Exc (Option P)) (ops : List (Op A))
    (origin eid : Str) (st : St A E) (hst : st = run prop w x call empty ops)
    (hone : ∃ r, Below st origin r) (hq : ∀ r, Below st origin r → Quiet w r eid)
    (href : ∀ r a, Below st origin r → w.arch r = .ok a → a.ref = r.ref) :
    ((∃ e st', fetch w st origin eid = .ok e st') ↔ ∃ r e, Below st origin r ∧ Has w r eid e) ∧
    ((∃ st', fetch w st origin eid = .err .entityNotFound st') ↔ ¬ ∃ r e, Below st origin r ∧ Has w r eid e) := by
  obtain ⟨h0, -⟩ := run_inv prop x call ops (empty_inv w)
  rw [← hst] at h0
  obtain ⟨r0, hr0⟩ := hone
  obtain ⟨l, hl⟩ := candidate_known w st origin (.one "basic") false r0 ((candidate_basic st _ r0).2 hr0)
  have hm : ∀ r, r ∈ l ↔ Below st origin r := fun r => (sorted_mem w st origin _ _ l hl r).trans (candidate_basic st _ r)
  have hlk : lookup w st origin eid = lookupIn w eid l st := by unfold lookup; rw [hl]
  rcases lookupIn_quiet w eid l st (fun r hr => hq r ((hm r).1 hr)) with ⟨o, s, h1, r1, hr1, e1, hh1⟩ | ⟨s, h1, h2⟩
  · -- found
    have hex : ∃ r e, Below st origin r ∧ Has w r eid e := ⟨r1, e1, (hm r1).1 hr1, hh1⟩
    obtain ⟨r, a, e, hb, ha, hae, hao, -⟩ := lookup_first w st origin eid o s (hlk.trans h1)
    have ho : o = r.ref := by rw [← hao]; exact href r a hb ha
    have g := lookup_grows w st origin eid
    rw [hlk, h1] at g
    simp only [Out.state] at g
    obtain ⟨hi, -⟩ := h0.grows g
    have hrsv : s.rsv = st.rsv := by rw [g.1]
    obtain ⟨ref, hlist, hhits⟩ := hb
    have href' : r.ref = ref := h0.own ref r hlist
    have hok : ∃ e s', fetch w st origin eid = .ok e s' := by
      unfold fetch
      rw [hlk, h1]
      simp only [Out.bind]
      -- the query
      have hres : ∃ y ys, Rsv.resolve s.rsv o none false = .ok (y :: ys) := by
        rw [hrsv]
        obtain ⟨rs, hrs, hrm⟩ := hlist
        obtain ⟨m, hm'⟩ := (Rsv.resolve_unknown st.rsv o none false).2
          ⟨ref, List.mem_map.2 ⟨_, hrs, rfl⟩, .inl (by rw [ho, href'])⟩
        have hin := (Rsv.resolve_exact st.rsv o none false m hm' r).2
          ⟨ref, ⟨rs, hrs, hrm⟩, .inl (by rw [ho, href']), by intro l hl; cases hl⟩
        obtain ⟨y, ys, e⟩ := List.exists_cons_of_ne_nil (List.ne_nil_of_mem hin)
        exact ⟨y, ys, by rw [hm', e]⟩
      obtain ⟨y, ys, hres⟩ := hres
      have hqok : ∃ q s2, query s o false false = .ok q s2 ∧ ∃ c, s2.objs.get? q = some ⟨o, c⟩ := by
        unfold query
        rw [hres]
        dsimp only
        cases hqq : s.queries.get? o with
        | some q =>
          obtain ⟨c, hc⟩ := hi.kept o q hqq
          exact ⟨q, s, rfl, c, hc⟩
        | none => exact ⟨s.next, newQuery s o, rfl, [], by unfold newQuery; dsimp only; rw [Dict.get?_set_self]⟩
      obtain ⟨q, s2, hq1, c, hq2⟩ := hqok
      rw [hq1]
      dsimp only
      have hq3 : s2.rsv = s.rsv := by
        have : (query s o false false).state.rsv = s.rsv := by
          unfold query
          rw [hres]
          dsimp only
          split <;> rfl
        rw [hq1] at this
        exact this
      cases hc : c.get? eid with
      | some e' =>
        refine ⟨e', s2, ?_⟩
        unfold get
        rw [hq2]
        dsimp only
        rw [hc]
      | none =>
        have hbel : ∀ r', Below s2 o r' → Below st origin r' := by
          rintro r' ⟨ref', h3, h4⟩
          rw [hq3, hrsv] at h3
          refine ⟨ref', h3, ?_⟩
          rw [ho, href'] at h4
          rcases hhits with rfl | ⟨-, t, rfl⟩
          · exact h4
          · rcases h4 with rfl | ⟨-, t', rfl⟩
            · exact .inr ⟨rfl, t, rfl⟩
            · exact .inr ⟨rfl, t ++ '.' :: t', by simp⟩
        have hr : Below s2 o r := ⟨ref, by rw [hq3, hrsv]; exact hlist, .inl (by rw [ho, href'])⟩
        exact ((get_iff_partial w s2 q ⟨o, c⟩ eid hq2 hc ⟨r, hr⟩ (fun r' hr' => hq r' (hbel r' hr'))).1).2
          ⟨r, e, hr, a, ha, hae⟩
    refine ⟨⟨fun _ => hex, fun _ => hok⟩, ⟨?_, fun h => absurd hex h⟩⟩
    rintro ⟨s', h'⟩
    obtain ⟨e', s'', h''⟩ := hok
    rw [h'] at h''
    cases h''
  · have hno : ¬ ∃ r e, Below st origin r ∧ Has w r eid e := by
      rintro ⟨r, e, hb, hh⟩
      exact h2 ⟨r, (hm r).2 hb, e, hh⟩
    have herr : fetch w st origin eid = .err .entityNotFound s := by
      unfold fetch
      rw [hlk, h1]
      rfl
    refine ⟨⟨?_, fun h => absurd h hno⟩, ⟨fun _ => hno, fun _ => ⟨s, herr⟩⟩⟩
    rintro ⟨e, s', h'⟩
    rw [herr] at h'
    cases h'

end Cat
