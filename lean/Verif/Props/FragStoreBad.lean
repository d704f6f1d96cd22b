import Verif.Props.FragStoreLoad

/-!
C118: foregrounds that are saved without complaint and cannot be loaded again.
-/

namespace FgS
open Frg (Key Dir saveEvs loadRest WellNamed)

/-- what a record must have to be loaded -/
def neededKeys : List String :=
  ["flow", "direction", "isPrivate", "isBackground", "isBalanceFlow", "exchangeValues", "terminations", "tags"]

theorem popTags_gone {ks : List String} {j j' : Rec} (h : popTags ks j = .ok j') {k : String} (hk : k ∈ ks ∨ j.get? k = none) :
    j'.get? k = none := by
  induction ks generalizing j with
  | nil => simp [popTags] at h; subst h; exact hk.resolve_left (by simp)
  | cons a ks ih =>
    rw [popTags] at h
    split at h
    · refine ih h ?_
      rcases hk with hk | hk
      · rcases List.mem_cons.1 hk with rfl | hk
        · exact .inr (by simp [Dict.get?_del'])
        · exact .inl hk
      · refine .inr ?_
        rw [Dict.get?_del']; split
        · rfl
        · exact hk
    · simp at h

section
variable {env : Env} {o : PyOrd String}

theorem bind_error {α β : Type} {x : Except Err α} {f : α → Except Err β} (h : ∀ a, ∃ e, f a = .error e) : ∃ e, (x >>= f) = .error e := by
  cases x with
  | error e => exact ⟨e, rfl⟩
  | ok a => exact h a

theorem bind_error' {α β : Type} {x : Except Err α} {f : α → Except Err β} (h : ∃ e, x = .error e) : ∃ e, (x >>= f) = .error e := by
  obtain ⟨e, rfl⟩ := h; exact ⟨e, rfl⟩

theorem bind_error_of {α β : Type} {x : Except Err α} {f : α → Except Err β} (h : ∀ a, x = .ok a → ∃ e, f a = .error e) :
    ∃ e, (x >>= f) = .error e := by
  cases x with
  | error e => exact ⟨e, rfl⟩
  | ok a => exact h a rfl

theorem loadOne_missing (fg : Fore) (j : Rec) {k : String} (hk : k ∈ neededKeys) (ht : k ≠ "terminations") (hj : j.get? k = none) :
    ∃ e, loadOne env o fg j = .error e := by
  have hk : k ∈ ["flow", "direction", "isPrivate", "isBackground", "isBalanceFlow", "exchangeValues", "tags"] := by
    simp only [neededKeys, List.mem_cons, List.not_mem_nil, or_false] at hk ⊢
    tauto
  rw [loadOne]
  simp only [List.mem_cons, List.not_mem_nil, or_false] at hk
  refine bind_error fun _ => bind_error fun _ => ?_
  by_cases h1 : k = "flow"
  · subst h1; exact bind_error' ⟨_, by rw [str?, hj]⟩
  refine bind_error fun _ => bind_error fun _ => bind_error fun _ => ?_
  by_cases h2 : k = "direction"
  · subst h2; exact bind_error' ⟨_, by rw [dir?, hj]⟩
  refine bind_error fun _ => ?_
  by_cases h3 : k = "exchangeValues"
  · subst h3; exact bind_error' ⟨_, by rw [evs?, hj]⟩
  refine bind_error fun _ => ?_
  by_cases h4 : k = "isPrivate"
  · subst h4; exact bind_error' ⟨_, by rw [bool?, hj]⟩
  refine bind_error fun _ => ?_
  by_cases h5 : k = "isBalanceFlow"
  · subst h5; exact bind_error' ⟨_, by rw [bool?, hj]⟩
  refine bind_error fun _ => ?_
  by_cases h6 : k = "isBackground"
  · subst h6; exact bind_error' ⟨_, by rw [bool?, hj]⟩
  refine bind_error fun _ => bind_error fun _ => ?_
  have h7 : k = "tags" := by tauto
  subst h7; exact bind_error' ⟨_, by rw [tags?, hj]⟩

theorem loadOne_balance (fg : Fore) (j : Rec) (hb : j.get? "isBalanceFlow" = some (.bool true)) {evs : Dict String (Option ℚ)}
    (he : j.get? "exchangeValues" = some (.evs evs)) {v : Option ℚ} (hv : evs.get? "0" = some v) (hne : v ≠ some 1) :
    ∃ e, loadOne env o fg j = .error e := by
  rw [loadOne]
  refine bind_error fun _ => bind_error fun _ => bind_error fun _ => bind_error fun _ => bind_error fun _ => bind_error fun _ => ?_
  refine bind_error_of fun ev hev => bind_error fun _ => bind_error_of fun b hb' => ?_
  rw [evs?, he] at hev; obtain rfl := Except.ok.inj hev
  rw [bool?, hb] at hb'; obtain rfl := Except.ok.inj hb'
  refine bind_error fun _ => bind_error fun _ => bind_error fun _ => bind_error fun _ => ?_
  refine bind_error' ⟨.attributeError, ?_⟩
  rw [loadEvs, hv]
  simp [hne]

theorem finishOne_missing (fg : Fore) (j : Rec) (hj : j.get? "terminations" = none) : ∃ e, finishOne env o fg j = .error e := by
  rw [finishOne]
  refine bind_error fun key => ?_
  split
  · split
    · exact ⟨_, rfl⟩
    · exact bind_error' ⟨_, by rw [terms?, hj]⟩
  · exact ⟨_, rfl⟩

theorem finishTerms_error (ix : Ix) (u : String) (l : List (String × Option JTerm)) (h : ∃ kj ∈ l, ∀ f : Frag, ∃ e, loadTerm env o ix u f kj.2 = .error e)
    (f : Frag) : ∃ e, finishTerms env o ix u l f = .error e := by
  induction l generalizing f with
  | nil => obtain ⟨x, hx, -⟩ := h; exact absurd hx List.not_mem_nil
  | cons a l ih =>
    obtain ⟨k, j⟩ := a
    rw [finishTerms]
    cases hl : loadTerm env o ix u f j with
    | error e => exact ⟨e, rfl⟩
    | ok t =>
      simp only
      refine ih ?_ _
      obtain ⟨x, hx, hxe⟩ := h
      rcases List.mem_cons.1 hx with rfl | hx
      · obtain ⟨e, he⟩ := hxe f; rw [hl] at he; simp at he
      · exact ⟨x, hx, hxe⟩

theorem loopE_error {g : Fore → Rec → Except Err Fore} (js : List Rec) (h : ∃ j ∈ js, ∀ fg, ∃ e, g fg j = .error e) (fg : Fore) :
    ∃ e, loopE g js fg = .error e := by
  induction js generalizing fg with
  | nil => obtain ⟨j, hj, -⟩ := h; exact absurd hj List.not_mem_nil
  | cons a js ih =>
    rw [loopE]
    cases hg : g fg a with
    | error e => exact ⟨e, rfl⟩
    | ok fg1 =>
      simp only
      refine ih ?_ _
      obtain ⟨j, hj, hje⟩ := h
      rcases List.mem_cons.1 hj with rfl | hj
      · obtain ⟨e, he⟩ := hje fg; rw [hg] at he; simp at he
      · exact ⟨j, hj, hje⟩

theorem readFiles_mem {d : Dir'} {ns : List String} {n : String} {js ks : List Rec} (hn : n ∈ ns) (hd : d.get? n = some (some js))
    (h : readFiles d ns = .ok ks) : ∀ j ∈ js, j ∈ ks := by
  induction ns generalizing ks with
  | nil => exact absurd hn List.not_mem_nil
  | cons a ns ih =>
    rw [readFiles] at h
    cases ha : d.get? a with
    | none => rw [ha] at h; simp at h
    | some c =>
      cases c with
      | none => rw [ha] at h; simp at h
      | some l =>
        rw [ha] at h
        cases hr : readFiles d ns with
        | error e => rw [hr] at h; simp at h
        | ok r =>
          rw [hr] at h
          have h : l ++ r = ks := by simpa using h
          subst h
          intro j hj
          rcases List.mem_cons.1 hn with rfl | hn
          · rw [ha] at hd
            obtain rfl : l = js := by simpa using hd
            exact List.mem_append_left _ hj
          · exact List.mem_append_right _ (ih hn hr j hj)

/-- one record that can never be loaded spoils the directory -/
theorem unloadable {fg : Fore} (ht : Trees fg) {fuel : ℕ} {d d' : Dir'} (hs : saveFragments env fg fuel d = .ok () d') {u : String} {f : Frag}
    (hu : In fg u) (hf : fg.frags.get? u = some f)
    (hbad : ∀ j, serialize env fg u f = .ok j → (∀ st, ∃ e, loadOne env o st j = .error e) ∨ ∀ st, ∃ e, finishOne env o st j = .error e)
    (lo : PyOrd String) (base : Ix) : ∃ e, loadFragments env o lo base d' = .error e := by
  obtain ⟨hw, -, -⟩ := save_files env fg ht fuel d d' hs
  obtain ⟨r, hr, hb⟩ := hu
  obtain ⟨us, js, h1, h2, -, h3⟩ := hw r hr
  have hmem := (recurse_mem ht h1 u).2 hb
  obtain ⟨j, hj, hser⟩ : ∃ j ∈ js, serialize env fg u f = .ok j := by
    have := serAll_ok h2
    clear h1 h2 h3
    induction this with
    | nil => exact absurd hmem List.not_mem_nil
    | @cons v j us js hv _ ih =>
      rcases List.mem_cons.1 hmem with rfl | hm
      · obtain ⟨f', hf', hj⟩ := hv
        rw [hf] at hf'; obtain rfl := Option.some.inj hf'
        exact ⟨j, List.mem_cons_self, hj⟩
      · obtain ⟨j', hj', h⟩ := ih hm
        exact ⟨j', List.mem_cons_of_mem _ hj', h⟩
  rw [loadFragments]
  cases hrd : readFiles d' (lo.f d'.keys) with
  | error e => exact ⟨e, rfl⟩
  | ok ks =>
    simp only [doLoad]
    have hjk := readFiles_mem ((lo.perm _).mem_iff.2 ((Dict.mem_keys_iff _ _).2 ⟨_, h3⟩)) h3 hrd j hj
    rcases hbad j hser with hb | hb
    · obtain ⟨e, he⟩ := loopE_error ks ⟨j, hjk, hb⟩ { ix := base }
      exact ⟨e, by rw [he]⟩
    · cases hl : loopE (loadOne env o) ks { ix := base } with
      | error e => exact ⟨e, rfl⟩
      | ok st => exact loopE_error ks ⟨j, hjk, hb⟩ st

/-- **C118** needs its hypothesis on the names of properties: a fragment with a property named like an entry of its record, say 'flow'
or 'direction', is saved without that entry, and the foreground cannot be loaded any more. -/
theorem reserved_property_unloadable (env : Env) (fg : Fore) (ht : Trees fg) (fuel : ℕ) (d d' : Dir')
    (hs : saveFragments env fg fuel d = .ok () d') (u : String) (f : Frag) (hu : In fg u) (hf : fg.frags.get? u = some f)
    (hd : LDict.Distinct env.lower f.tags) (k : String) (hk : k ∈ neededKeys) (hkt : k ∈ f.tags.map Prod.fst) (o lo : PyOrd String)
    (base : Ix) : ∃ e, loadFragments env o lo base d' = .error e := by
  refine unloadable ht hs hu hf (fun j hj => ?_) lo base
  have hg : j.get? k = none := popTags_gone hj (.inl (by rw [keys_eq (distinct_nodup hd)]; exact hkt))
  by_cases h : k = "terminations"
  · subst h; exact .inr fun st => finishOne_missing st j hg
  · exact .inl fun st => loadOne_missing st j hk h hg

/-- **C118** needs its hypothesis on balance flows: a balance flow with a cached exchange value other than 1 is saved, and the
foreground cannot be loaded any more. -/
theorem balance_value_unloadable (env : Env) (fg : Fore) (ht : Trees fg) (fuel : ℕ) (d d' : Dir')
    (hs : saveFragments env fg fuel d = .ok () d') (u : String) (f : Frag) (hu : In fg u) (hf : fg.frags.get? u = some f)
    (hp : PlainTags env f.tags) (hw : WellNamed f.evs) (hb : f.bal = true) (v : Option ℚ) (hv : f.evs.get? .cached = some v)
    (hne : v ≠ some 1) (o lo : PyOrd String) (base : Ix) : ∃ e, loadFragments env o lo base d' = .error e := by
  refine unloadable ht hs hu hf (fun j hj => .inl fun st => ?_) lo base
  obtain ⟨j', hj', -, -, -, -, -, -, -, e8, e9, -⟩ := serialize_spec env fg u f hp
  rw [hj] at hj'; obtain rfl := Except.ok.inj hj'
  rw [hb] at e8
  refine loadOne_balance st j e8 e9 (v := v) ?_ hne
  rw [(Frg.save_get f.evs hw).1, hv]

/-- **C118** needs its hypothesis on what the catalog can fetch: one termination to an entity that the catalog does not find makes
loading the whole foreground raise. -/
theorem unreachable_unloadable (env : Env) (fg : Fore) (ht : Trees fg) (fuel : ℕ) (d d' : Dir')
    (hs : saveFragments env fg fuel d = .ok () d') (u : String) (f : Frag) (hu : In fg u) (hf : fg.frags.get? u = some f)
    (hp : PlainTags env f.tags) (hn : f.terms.keys.Nodup) (hnames : ∀ s, some s ∈ f.terms.keys → s ≠ "default")
    (sc : Option String) (t : Term) (htm : f.terms.get? sc = some t) (x : Ent) (hx : t.node = .ent x) (h1 : x.origin ≠ env.ref)
    (h2 : x.origin ≠ "foreground") (e : Err) (hfetch : env.fetch x.origin x.ext = .error e) (o lo : PyOrd String) (base : Ix) :
    ∃ e, loadFragments env o lo base d' = .error e := by
  refine unloadable ht hs hu hf (fun j hj => .inr fun st => ?_) lo base
  obtain ⟨j', hj', -, -, -, -, -, -, -, -, -, e10, -⟩ := serialize_spec env fg u f hp
  rw [hj] at hj'; obtain rfl := Except.ok.inj hj'
  rw [finishOne]
  refine bind_error fun key => ?_
  split
  swap
  · exact ⟨_, rfl⟩
  rename_i w _
  split
  · exact ⟨_, rfl⟩
  rename_i g _
  refine bind_error_of fun tj htj => ?_
  rw [terms?, e10] at htj; obtain rfl := Except.ok.inj htj
  refine bind_error' (finishTerms_error st.ix w _ ⟨(termName sc, serTerm env fg f t), ?_, ?_⟩ g)
  · rw [(sortK_perm _).mem_iff]
    apply Dict.mem_of_get?_eq_some
    have hinj : ∀ a ∈ f.terms.keys, ∀ b ∈ f.terms.keys, termName a = termName b → a = b := by
      intro a ha b hb e
      cases a with
      | none =>
        cases b with
        | none => rfl
        | some s => exact absurd e.symm (hnames s hb)
      | some r =>
        cases b with
        | none => exact absurd e (hnames r ha)
        | some s => exact congrArg some e
    let D : Dict (Option String) (Option JTerm) := f.terms.map fun kt => (kt.1, serTerm env fg f kt.2)
    have hDk : D.keys = f.terms.keys := by simp [D, Dict.keys, Function.comp_def]
    have hser : serTerms env fg f = D.foldl (fun (a : Dict String (Option JTerm)) kv => a.set (termName kv.1) kv.2) [] := by
      simp only [serTerms, D, List.foldl_map]
    rw [hser, (Frg.fold_rename termName D [] (by rw [hDk]; exact hn) (by rw [hDk]; exact hinj) _).1 sc
      (by rw [hDk]; exact (Dict.mem_keys_iff _ _).2 ⟨t, htm⟩) rfl]
    apply Dict.get?_eq_some_of_mem
    · rw [hDk]; exact hn
    · exact List.mem_map.2 ⟨(sc, t), Dict.mem_of_get?_eq_some _ htm, rfl⟩
  · intro g
    simp only [serTerm, nodeRef, hx, loadTerm, if_neg h2]
    refine bind_error fun _ => bind_error' ⟨e, ?_⟩
    simp [termNode, h1, hfetch]

end

end FgS
