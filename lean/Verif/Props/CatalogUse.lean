import Verif.Props.CatalogGet

/-!
`query` and its memory (C96), nicknames (C97), and where the code fails the claims C91-C97.
-/

set_option linter.unusedSectionVars false

namespace Cat
open Rsv (Str Res Listed Hits Provides exRes)

variable {A E : Type} [DecidableEq A]

/-! ### C96: query -/

/-- C96: `query` returns a query of this origin exactly if a resource is registered that the origin hits; if not, it raises and changes
nothing. -/
theorem query_iff (w : World A E) (st : St A E) (hi : Inv w st) (origin : Str) (strict refresh : Bool) :
    ((∃ q st', query st origin strict refresh = .ok q st') ↔ ∃ ref r, Listed st.rsv ref r ∧ Hits origin ref strict) ∧
    (∀ q st', query st origin strict refresh = .ok q st' → ∃ c, st'.objs.get? q = some ⟨origin, c⟩ ∧ st'.queries.get? origin = some q) ∧
    (∀ e st', query st origin strict refresh = .err e st' → st' = st) := by
  have hex := Rsv.resolve_exact st.rsv origin none strict
  have hun := (Rsv.resolve_unknown st.rsv origin none strict).2
  unfold query
  cases hr : Rsv.resolve st.rsv origin none strict with
  | error e =>
    dsimp only
    refine ⟨⟨?_, ?_⟩, ?_, ?_⟩
    · rintro ⟨q, s, h⟩; cases h
    · rintro ⟨ref, r, ⟨rs, h1, h2⟩, h3⟩
      obtain ⟨l, hl⟩ := hun ⟨ref, List.mem_map.2 ⟨_, h1, rfl⟩, h3⟩
      rw [hr] at hl
      cases hl
    · intro q s h; cases h
    · intro e s h; cases h; rfl
  | ok l =>
    have hmem := hex l hr
    cases l with
    | nil =>
      dsimp only
      refine ⟨⟨?_, ?_⟩, ?_, ?_⟩
      · rintro ⟨q, s, h⟩; cases h
      · rintro ⟨ref, r, h1, h2⟩
        have := (hmem r).2 ⟨ref, h1, h2, fun l hl => by cases hl⟩
        simp at this
      · intro q s h; cases h
      · intro e s h; cases h; rfl
    | cons y ys =>
      have hy : ∃ ref r, Listed st.rsv ref r ∧ Hits origin ref strict := by
        obtain ⟨ref, h1, h2, -⟩ := (hmem y).1 (by simp)
        exact ⟨ref, y, h1, h2⟩
      have new : ∃ c, (newQuery st origin).objs.get? st.next = some ⟨origin, c⟩ ∧ (newQuery st origin).queries.get? origin = some st.next := by
        unfold newQuery
        exact ⟨[], Dict.get?_set_self .., Dict.get?_set_self ..⟩
      dsimp only
      cases refresh with
      | true =>
        refine ⟨⟨fun _ => hy, fun _ => ⟨_, _, rfl⟩⟩, ?_, ?_⟩
        · intro q s h; cases h; exact new
        · intro e s h; cases h
      | false =>
        cases hq : st.queries.get? origin with
        | none =>
          refine ⟨⟨fun _ => hy, fun _ => ⟨_, _, rfl⟩⟩, ?_, ?_⟩
          · intro q s h; cases h; exact new
          · intro e s h; cases h
        | some q0 =>
          refine ⟨⟨fun _ => hy, fun _ => ⟨_, _, rfl⟩⟩, ?_, ?_⟩
          · intro q s h
            cases h
            obtain ⟨c, hc⟩ := hi.kept origin q0 hq
            exact ⟨c, hc, hq⟩
          · intro e s h; cases h

/-- C96: asked again for the same origin, it gives the same object; after any history without a refresh of this origin. -/
theorem query_again (st st' : St A E) (origin : Str) (s f s' : Bool) (q : ℕ) (hq : st.queries.get? origin = some q)
    (h : query st origin s' false = .ok q' st') : q' = q ∧ st' = st := by
  unfold query at h
  split at h
  · cases h
  · cases h
  · rw [hq] at h
    injection h with h1 h2
    exact ⟨h1.symm, h2.symm⟩

/-- what each operation does to the query kept for an origin: nothing, unless the origin is refreshed or had none -/
theorem queries_step {P : Type} (prop : Face E P) (w : World A E) (x : Exc) (call : Arch E → Except Exc (Option P))
    (st : St A E) (op : Op A) (origin : Str) (q : ℕ) (hq : st.queries.get? origin = some q)
    (hop : ∀ s, op ≠ .query origin s true) : (step prop w x call st op).queries.get? origin = some q := by
  have hgrow : ∀ st', Grows st st' → st'.queries.get? origin = some q := by
    intro st' g
    rw [g.1]
    exact hq
  have hqq : ∀ (st : St A E) o s f, st.queries.get? origin = some q → (f = true → o ≠ origin) →
      (query st o s f).state.queries.get? origin = some q := by
    intro st o s f hq hf
    unfold query
    split
    · exact hq
    · exact hq
    · by_cases e : o = origin
      · subst e
        rw [hq]
        have : f = false := by
          cases f with
          | false => rfl
          | true => exact absurd rfl (hf rfl)
        subst this
        exact hq
      · split
        · exact hq
        · unfold newQuery
          simp only [Out.state]
          rw [Dict.get?_set_ne _ _ e]
          exact hq
  have hget : ∀ (st : St A E) n eid, st.queries.get? origin = some q → (get w st n eid).state.queries.get? origin = some q := by
    intro st n eid hq
    unfold get
    split
    · exact hq
    · rename_i o ho
      split
      · exact hq
      · have g := performQuery_grows w st o.origin (.one "basic") false .entityNotFound (fun a => a.fetch eid)
        cases hp : performQuery w st o.origin (.one "basic") false .entityNotFound (fun a => a.fetch eid) with
        | err e s => rw [hp] at g; simp only [Out.bind, Out.state] at g ⊢; rw [g.1]; exact hq
        | ok v s => rw [hp] at g; simp only [Out.bind, Out.state] at g ⊢; rw [g.1]; exact hq
  cases op with
  | add r s => exact hq
  | del r => exact hq
  | has r => exact hq
  | nick s n =>
    show (addNickname st s n).state.queries.get? origin = some q
    unfold addNickname
    split <;> exact hq
  | query o s f =>
    refine hqq st o s f hq ?_
    rintro rfl rfl
    exact hop s rfl
  | get n eid => exact hget st n eid hq
  | item n eid it =>
    show (getItem prop w st n eid it).state.queries.get? origin = some q
    unfold getItem
    split
    · exact hq
    · exact hgrow _ (performQuery_grows ..)
  | ask o t s => exact hgrow _ (performQuery_grows ..)
  | lookup o e => exact hgrow _ (lookup_grows ..)
  | fetch o e =>
    show (fetch w st o e).state.queries.get? origin = some q
    unfold fetch
    have g := hgrow _ (lookup_grows w st o e)
    cases hl : lookup w st o e with
    | err e s => rw [hl] at g; exact g
    | ok org s =>
      rw [hl] at g
      simp only [Out.bind, Out.state] at g ⊢
      have g2 := hqq s org false false g (fun h => by cases h)
      cases hq2 : query s org false false with
      | err e s2 => rw [hq2] at g2; exact g2
      | ok n s2 =>
        rw [hq2] at g2
        exact hget s2 n e g2
  | secure n t s =>
    show (secure w st n t s).state.queries.get? origin = some q
    unfold secure
    split
    · exact hq
    · split
      · exact hq
      · exact hgrow _ (secureAll_grows ..)

/-- C96: the catalog gives the same query object for an origin as long as the origin is not refreshed. -/
theorem query_memo {P : Type} (prop : Face E P) (w : World A E) (x : Exc) (call : Arch E → Except Exc (Option P))
    (before ops : List (Op A)) (origin : Str) (s s' f : Bool) (q q' : ℕ) (st st' : St A E)
    (h : query (run prop w x call empty before) origin s f = .ok q st) (hops : ∀ b, .query origin b true ∉ ops)
    (h' : query (run prop w x call st ops) origin s' false = .ok q' st') : q' = q ∧ st' = run prop w x call st ops := by
  obtain ⟨h0, -⟩ := run_inv prop x call before (empty_inv w)
  obtain ⟨c, -, hq⟩ := (query_iff w _ h0 origin s f).2.1 q st h
  have hk : (run prop w x call st ops).queries.get? origin = some q := by
    clear h h' h0
    induction ops generalizing st with
    | nil => exact hq
    | cons op ops ih =>
      refine ih (step prop w x call st op) ?_ ?_
      · exact fun b hb => hops b (List.mem_cons_of_mem _ hb)
      · exact queries_step prop w x call st op origin q hq (fun b e => hops b (by rw [e]; simp))
  exact query_again _ st' origin s f s' q hk h'

/-- C96: a refresh makes a query that knows nothing yet; the old one and all others stay as they are. -/
theorem query_refresh (w : World A E) (st st' : St A E) (hi : Inv w st) (origin : Str) (s : Bool) (q : ℕ)
    (h : query st origin s true = .ok q st') :
    st.objs.get? q = none ∧ st'.objs.get? q = some ⟨origin, []⟩ ∧ (∀ n, n ≠ q → st'.objs.get? n = st.objs.get? n) ∧
      (∀ o, o ≠ origin → st'.queries.get? o = st.queries.get? o) := by
  unfold query at h
  split at h
  · cases h
  · cases h
  · injection h with h1 h2
    subst h1; subst h2
    unfold newQuery
    refine ⟨hi.fresh _ le_rfl, Dict.get?_set_self .., fun n hn => ?_, fun o ho => ?_⟩
    · exact Dict.get?_set_ne _ _ (Ne.symm hn)
    · exact Dict.get?_set_ne _ _ (Ne.symm ho)

/-! ### C97: nicknames -/

/-- C97: a nickname that was accepted stands for its source: looking for it is looking for the source, and what is found has this
source. No other name is affected. -/
theorem nickname_spec (st st' : St A E) (source name : Str) (h : addNickname st (some source) name = .ok () st')
    (iface : Option (List String)) (strict : Bool) :
    (∃ ref r, Listed st.rsv ref r ∧ r.source = some source) ∧
    (∀ src r, getResource st' name iface src strict = .ok r → r.source = some source ∧ (∃ ref, Listed st'.rsv ref r) ∧
      ∀ ref r', Listed st'.rsv ref r' → r'.source = some source → r.prio ≤ r'.prio ∧ (strict = true → r' = r)) ∧
    (∀ name' src, name' ≠ name → getResource st' name' iface src strict = getResource st name' iface src strict) := by
  unfold addNickname at h
  split at h
  · rename_i hk
    injection h with _ h2
    subst h2
    refine ⟨?_, ?_, ?_⟩
    · unfold Rsv.knownSource Rsv.withSource at hk
      simp only [Bool.not_eq_true', List.isEmpty_eq_false_iff] at hk
      obtain ⟨r, l, hl⟩ := List.exists_cons_of_ne_nil hk
      have hr : r ∈ ((st.rsv.mem.flatMap Prod.snd).filter fun r => decide (r.source = some source)) := by rw [hl]; simp
      simp only [List.mem_filter, List.mem_flatMap, decide_eq_true_eq] at hr
      obtain ⟨⟨⟨ref, rs⟩, h1, h2⟩, h3⟩ := hr
      exact ⟨ref, r, ⟨rs, h1, h2⟩, h3⟩
    · intro src r hr
      unfold getResource at hr
      dsimp only at hr
      rw [Dict.get?_set_self] at hr
      dsimp only at hr
      obtain ⟨⟨h1, h2, -⟩, h3, h4⟩ := Rsv.getResource_source_partial _ _ _ _ _ _ _ hr
      refine ⟨h2, h1, fun ref r' hl hs => ?_⟩
      exact ⟨h3 r' ⟨⟨ref, hl⟩, hs, by simp⟩, fun hst => h4 hst r' ⟨⟨ref, hl⟩, hs, by simp⟩⟩
    · intro name' src hne
      unfold getResource
      dsimp only
      rw [Dict.get?_set_ne _ _ (Ne.symm hne)]
  · cases h

/-- C97: a nickname for a source that no resource has is refused -/
theorem nickname_refused (st : St A E) (source : Option Str) (name : Str) (h : ¬ ∃ ref r, Listed st.rsv ref r ∧ r.source = source) :
    addNickname st source name = .err .keyError st := by
  unfold addNickname
  rw [if_neg]
  intro hk
  unfold Rsv.knownSource Rsv.withSource at hk
  simp only [Bool.not_eq_true', List.isEmpty_eq_false_iff] at hk
  obtain ⟨r, l, hl⟩ := List.exists_cons_of_ne_nil hk
  have hr : r ∈ ((st.rsv.mem.flatMap Prod.snd).filter fun r => decide (r.source = source)) := by rw [hl]; simp
  simp only [List.mem_filter, List.mem_flatMap, decide_eq_true_eq] at hr
  obtain ⟨⟨⟨ref, rs⟩, h1, h2⟩, h3⟩ := hr
  exact h ⟨ref, r, ⟨rs, h1, h2⟩, h3⟩

/-! ### `resolve` of a query -/

/-- The default of `CatalogQuery.resolve` never works: it raises InterfaceError at the first resource that can be loaded. -/
theorem secure_default_raises (w : World A E) (st : St A E) (q : ℕ) (o : Qry E) (ho : st.objs.get? q = some o) (strict : Bool)
    (hone : ∃ r, Candidate st o.origin allInterfaces strict r) (hload : ∀ r, Candidate st o.origin allInterfaces strict r → ∃ a, w.arch r = .ok a) :
    ∃ st', secure w st q allInterfaces strict = .err .interfaceError st' := by
  obtain ⟨r, hr⟩ := hone
  obtain ⟨l, hl⟩ := candidate_known w st o.origin allInterfaces strict r hr
  have hm := sorted_mem w st o.origin allInterfaces strict l hl
  unfold secure
  rw [ho]
  dsimp only
  rw [hl]
  dsimp only
  cases l with
  | nil => exact absurd ((hm r).2 hr) (by simp)
  | cons y ys =>
    obtain ⟨a, ha⟩ := hload y ((hm y).1 (by simp))
    unfold secureAll
    simp only [load, ha]
    exact ⟨_, rfl⟩

/-! ### examples and failures -/

/-- an archive for the examples -/
def exArch (ref : String) (static : Bool) (ents : List (String × ℕ)) (source : Except Exc (Option ℕ)) : Arch ℕ :=
  { ref := ref.toList, static := static, ifaces := ["basic", "index", "quantity"],
    held := ents.map fun p => (p.1.toList, p.2), source := fun _ => source }

/-- "db" (priority 10) is read on demand and has `a`; "db.x" (priority 20) is static and has `a` and `b`; "db.y" (priority 30) has `c` -/
def exW (source : Except Exc (Option ℕ)) : World Unit ℕ where
  arch r :=
    if r.oid = 0 then .ok (exArch "db" false [("a", 1)] source)
    else if r.oid = 1 then .ok (exArch "db.x" true [("a", 2), ("b", 3)] (.ok none))
    else if r.oid = 2 then .ok (exArch "db.y" false [("c", 4)] (.ok none))
    else .error .loadError

def r0 : Res Unit := { exRes 0 "db" "s0" ["index"] 10 with dtype := "Ecospold".toList }
def r1 : Res Unit := exRes 1 "db.x" "s1" ["index"] 20
def r2 : Res Unit := { exRes 2 "db.y" "s2" ["index"] 30 with dtype := "Ecospold".toList }

/-- the value and the loaded resources, or the exception -/
def view {R : Type} (o : Out (St Unit ℕ) Exc R) : (R × List ℕ) ⊕ Exc :=
  match o with
  | .ok v s => .inl (v, s.loaded)
  | .err e _ => .inr e

/-- a catalog with the three resources and a query of "db" -/
def ops0 : List (Op Unit) := [.add r0 false, .add r1 false, .add r2 false, .query "db".toList false false]

/-- entity 4 is a process without exchanges -/
def exProp : Face ℕ ℕ where
  truth e := e ≠ 4
  prop e item := if item = "mass".toList then some (10 * e) else none

def st0 (source : Except Exc (Option ℕ)) (ops : List (Op Unit)) : St Unit ℕ :=
  run exProp (exW source) .indexRequired (fun _ => .ok none) empty (ops0 ++ ops)

-- `a` is that of "db"; only "db" is loaded. `b` is in the second; `c` in the third; `d` in none
example :
    view (get (exW (.ok none)) (st0 (.ok none) []) 0 "a".toList) = .inl (1, [0]) ∧
    view (get (exW (.ok none)) (st0 (.ok none) []) 0 "b".toList) = .inl (3, [0, 1]) ∧
    view (get (exW (.ok none)) (st0 (.ok none) []) 0 "c".toList) = .inl (4, [0, 1, 2]) ∧
    view (get (exW (.ok none)) (st0 (.ok none) []) 0 "d".toList) = .inr .entityNotFound ∧
    view (fetch (exW (.ok none)) (st0 (.ok none) []) "db".toList "c".toList) = .inl (4, [0, 1, 2]) ∧
    view (fetchLink (exW (.ok none)) (st0 (.ok none) []) "db/b".toList) = .inl (3, [0, 1]) ∧
    view (lookup (exW (.ok none)) (st0 (.ok none) []) "db".toList "b".toList) = .inl ("db.x".toList, [0, 1]) ∧
    view (lookup (exW (.ok none)) (st0 (.ok none) []) "dc".toList "b".toList) = .inr .unknownOrigin := by decide +kernel

/-- the answer stays when the resource is deleted, and after "db.x" was loaded -/
example :
    view (get (exW (.ok none)) (st0 (.ok none) [.get 0 "a".toList, .del r0, .get 0 "b".toList]) 0 "a".toList) = .inl (1, [0, 1]) := by
  decide +kernel

/-- C91/C93 fails: an archive that cannot fetch (`_fetch` raises NotImplementedError, as that of the basic archives does) ends the search:
the entity is reported as not found although the next resource has it. -/
theorem not_implemented_ends : ∃ (st : St Unit ℕ) (r : Res Unit),
    view (get (exW (.error .notImplemented)) st 0 "b".toList) = .inr .entityNotFound ∧
      Below st "db".toList r ∧ Has (exW (.error .notImplemented)) r "b".toList 3 := by
  refine ⟨st0 (.error .notImplemented) [], r1, by decide +kernel, ⟨"db.x".toList, ⟨[r1], by decide +kernel, by decide +kernel⟩, ?_⟩, ?_⟩
  · exact .inr ⟨rfl, "x".toList, by decide +kernel⟩
  · exact ⟨_, rfl, by decide +kernel⟩

/-- C91/C93 fails: so does one whose `_fetch` raises KeyError (as that of the ecospold archives does): the error goes to the user. -/
theorem key_error_ends : ∃ (st : St Unit ℕ) (r : Res Unit),
    view (get (exW (.error .keyError)) st 0 "b".toList) = .inr .keyError ∧
      Below st "db".toList r ∧ Has (exW (.error .keyError)) r "b".toList 3 := by
  refine ⟨st0 (.error .keyError) [], r1, by decide +kernel, ⟨"db.x".toList, ⟨[r1], by decide +kernel, by decide +kernel⟩, ?_⟩, ?_⟩
  · exact .inr ⟨rfl, "x".toList, by decide +kernel⟩
  · exact ⟨_, rfl, by decide +kernel⟩

/-- C91 fails for `get_item`: it raises KeyError at the first resource, although `get` finds the entity in the second, and the entity has
the property. -/
theorem get_item_first_only : ∃ st : St Unit ℕ,
    view (get (exW (.ok none)) st 0 "b".toList) = .inl (3, [0, 1]) ∧ exProp.prop 3 "mass".toList = some 30 ∧
      view (getItem exProp (exW (.ok none)) st 0 "b".toList "mass".toList) = .inr .keyError :=
  ⟨st0 (.ok none) [], by decide +kernel, by decide +kernel, by decide +kernel⟩

/-- C91 fails for `get_item`: a process without exchanges is taken for a missing one. -/
theorem get_item_empty_process : ∃ st : St Unit ℕ,
    view (get (exW (.ok none)) st 0 "c".toList) = .inl (4, [2]) ∧ exProp.prop 4 "mass".toList = some 40 ∧
      view (getItem exProp (exW (.ok none)) st 0 "c".toList "mass".toList) = .inr .keyError :=
  ⟨run exProp (exW (.ok none)) .indexRequired (fun _ => .ok none) empty [.add r2 false, .query "db.y".toList false false],
    by decide +kernel, by decide +kernel, by decide +kernel⟩

/-- C95 fails as documented ("the origin of the lowest-priority resource to match the query"): a static resource that was loaded before
is asked first, whatever its priority; the answer depends on earlier queries. -/
theorem loaded_static_first : ∃ st : St Unit ℕ,
    view (lookup (exW (.ok none)) st "db".toList "a".toList) = .inl ("db".toList, [0]) ∧
    view (lookup (exW (.ok none)) (step exProp (exW (.ok none)) .indexRequired (fun _ => .ok none) st (.get 0 "b".toList))
      "db".toList "a".toList) = .inl ("db.x".toList, [0, 1]) ∧ r0.prio < r1.prio :=
  ⟨st0 (.ok none) [], by decide +kernel, by decide +kernel, by decide +kernel⟩

/-- C96 fails: a query that was asked for with strict=True answers from the resources below the origin all the same. -/
theorem strict_query_is_not : ∃ (st : St Unit ℕ) (q : ℕ) (st' : St Unit ℕ),
    query st "db".toList true true = .ok q st' ∧ view (get (exW (.ok none)) st' q "c".toList) = .inl (4, [0, 1, 2]) ∧
      r2.ref ≠ "db".toList :=
  ⟨st0 (.ok none) [], 1, newQuery (st0 (.ok none) []) "db".toList, by
    have h : Rsv.resolve (st0 (.ok none) []).rsv "db".toList none true = .ok [r0] := by decide +kernel
    unfold query
    rw [h]
    dsimp only
    have : (st0 (.ok none) []).next = 1 := by decide +kernel
    rw [this], by decide +kernel, by decide +kernel⟩

/-- C96 fails: asking whether a resource is registered makes its reference known, and a query of it then raises StopIteration instead of
UnknownOrigin. -/
theorem query_stop_iteration :
    view (query (empty : St Unit ℕ) "db".toList false false) = .inr .unknownOrigin ∧
    view (query (step exProp (exW (.ok none)) .indexRequired (fun _ => .ok none) empty (.has r0)) "db".toList false false) =
      .inr .stopIteration := by decide +kernel

/-- C97 fails: a nickname can hide an origin. -/
theorem nickname_hides : ∃ st : St Unit ℕ,
    (getResource st "db".toList none none true).toOption.map Res.oid = some 0 ∧
    (getResource (addNickname st (some "s2".toList) "db".toList).state "db".toList none none true).toOption.map Res.oid = some 2 :=
  ⟨st0 (.ok none) [], by decide +kernel, by decide +kernel⟩

-- nicknames: accepted, refused, looked up
example : (getResource (addNickname (st0 (.ok none) []) (some "s2".toList) "y".toList).state "y".toList none none true).toOption.map
      Res.oid = some 2 ∧
    view (addNickname (st0 (.ok none) []) (some "s3".toList) "y".toList) = .inr .keyError := by decide +kernel

-- the hypotheses of `query_complete_partial`, `get_iff_partial` and `fetch_iff_partial` hold in the example
example : (∀ r ∈ [r0, r1, r2], Quiet (exW (.ok none)) r "c".toList) ∧
    (∀ r ∈ [r0, r1, r2], ∀ a, (exW (.ok none)).arch r = .ok a → a.ref = r.ref) ∧
    (st0 (.ok none) []).rsv.mem.flatMap Prod.snd = [r0, r1, r2] := by
  refine ⟨?_, ?_, by decide +kernel⟩
  · intro r hr
    simp only [List.mem_cons, List.not_mem_nil, or_false] at hr
    rcases hr with rfl | rfl | rfl
    · exact ⟨_, none, rfl, by decide, by decide +kernel⟩
    · exact ⟨_, none, rfl, by decide, by decide +kernel⟩
    · exact ⟨_, some 4, rfl, by decide, by decide +kernel⟩
  · intro r hr a ha
    simp only [List.mem_cons, List.not_mem_nil, or_false] at hr
    rcases hr with rfl | rfl | rfl <;> cases ha <;> decide +kernel

-- `secure` works for one interface, not for the default
example : view (secure (exW (.ok none)) (st0 (.ok none) []) 0 (.one "index") false) = .inl ((), [0, 1, 2]) ∧
    view (secure (exW (.ok none)) (st0 (.ok none) []) 0 allInterfaces false) = .inr .interfaceError := by decide +kernel

-- a refresh forgets, the old object does not
example : view (get (exW (.ok none)) (st0 (.ok none) [.get 0 "a".toList, .get 0 "b".toList, .query "db".toList false true]) 1 "a".toList) =
      .inl (2, [0, 1]) ∧
    view (get (exW (.ok none)) (st0 (.ok none) [.get 0 "a".toList, .get 0 "b".toList, .query "db".toList false true]) 0 "a".toList) =
      .inl (1, [0, 1]) := by decide +kernel

end Cat
