import Verif.Props.FragStoreList
import Verif.Props.LowerDict

/-!
C116: what the fragment directory holds after saving; C117: a save that raises.
-/

namespace FgS
open Frg (Key Dir saveEvs)

/-! ### specification -/

/-- the keys of a record -/
def recordKeys : List String :=
  ["entityId", "entityType", "externalId", "parent", "flow", "direction", "isPrivate", "isBackground", "isBalanceFlow",
   "exchangeValues", "terminations", "tags"]

/-- a property table that can be saved: it was filled by assignments (no two names equal ignoring case), no name is one of those that
a record uses, and no value is None -/
structure PlainTags (env : Env) (tags : LDict.St String Val) : Prop where
  distinct : LDict.Distinct env.lower tags
  free : ∀ kv ∈ tags, kv.1 ∉ recordKeys
  value : ∀ kv ∈ tags, kv.2 ≠ .null

/-- the file of a reference fragment -/
def fileOf (r : String) : String := r ++ ".json"

theorem fileOf_inj {r s : String} (h : fileOf r = fileOf s) : r = s := by
  have := congrArg String.toList h
  simp only [fileOf, String.toList_append] at this
  exact String.toList_inj.1 (List.append_cancel_right this)

/-! ### records -/

theorem keys_eq {tags : LDict.St String Val} (h : (tags.map Prod.fst).Nodup) : LDict.keys tags = tags.map Prod.fst := by
  have key : ∀ (l acc : List String), (acc ++ l).Nodup →
      l.foldl (fun l k => if k ∈ l then l else l ++ [k]) acc = acc ++ l := by
    intro l
    induction l with
    | nil => intro acc _; simp
    | cons a l ih =>
      intro acc hn
      have ha : a ∉ acc := by
        intro hm
        exact (List.nodup_append.1 hn).2.2 a hm a List.mem_cons_self rfl
      rw [List.foldl_cons, if_neg ha, ih]
      · simp
      · simpa using hn
  have := key (tags.map Prod.fst) [] (by simpa using h)
  rw [List.nil_append] at this
  exact this

theorem distinct_nodup {lower : String → String} {tags : LDict.St String Val} (h : LDict.Distinct lower tags) :
    (tags.map Prod.fst).Nodup := by
  have : (tags.map fun p => lower p.1) = (tags.map Prod.fst).map lower := by simp
  rw [LDict.Distinct, this] at h
  exact h.of_map lower

theorem putTags_get {tags : LDict.St String Val} {j : Rec} {k : String} (h : ∀ kv ∈ tags, kv.1 ≠ k) :
    (putTags tags j).get? k = j.get? k := by
  induction tags generalizing j with
  | nil => rfl
  | cons kv tags ih =>
    have hk := h kv List.mem_cons_self
    have h' : ∀ kv ∈ tags, kv.1 ≠ k := fun x hx => h x (List.mem_cons_of_mem _ hx)
    rw [putTags, List.foldl_cons]
    refine (ih h').trans ?_
    split
    · rfl
    · exact Dict.get?_set_ne _ _ hk

theorem putTags_mem {tags : LDict.St String Val} {j : Rec} {k : String} (hv : ∀ kv ∈ tags, kv.2 ≠ .null)
    (h : k ∈ j.keys ∨ k ∈ tags.map Prod.fst) : k ∈ (putTags tags j).keys := by
  induction tags generalizing j with
  | nil => exact h.resolve_right (by simp)
  | cons kv tags ih =>
    rw [putTags, List.foldl_cons, if_neg (hv kv List.mem_cons_self)]
    refine ih (fun x hx => hv x (List.mem_cons_of_mem _ hx)) ?_
    rcases h with h | h
    · exact .inl ((Dict.mem_keys_set ..).2 (.inr h))
    · rcases List.mem_cons.1 h with rfl | h
      · exact .inl ((Dict.mem_keys_set ..).2 (.inl rfl))
      · exact .inr h

theorem popTags_get {ks : List String} {j j' : Rec} (h : popTags ks j = .ok j') (k : String) (hk : k ∉ ks) : j'.get? k = j.get? k := by
  induction ks generalizing j with
  | nil => simp [popTags] at h; rw [h]
  | cons a ks ih =>
    rw [popTags] at h
    split at h
    · rw [ih h fun hm => hk (List.mem_cons_of_mem _ hm), Dict.get?_del', if_neg]
      rintro rfl; exact hk List.mem_cons_self
    · simp at h

theorem popTags_ok {ks : List String} {j : Rec} (hn : ks.Nodup) (h : ∀ k ∈ ks, k ∈ j.keys) : ∃ j', popTags ks j = .ok j' := by
  induction ks generalizing j with
  | nil => exact ⟨j, rfl⟩
  | cons a ks ih =>
    have hn' := List.nodup_cons.1 hn
    rw [popTags, if_pos ((Dict.has_iff _ _).2 (h a List.mem_cons_self))]
    refine ih hn'.2 fun k hk => ?_
    obtain ⟨v, hv⟩ := (Dict.mem_keys_iff _ _).1 (h k (List.mem_cons_of_mem _ hk))
    exact (Dict.mem_keys_iff _ _).2 ⟨v, by rw [Dict.get?_del', if_neg (fun e : a = k => hn'.1 (e ▸ hk)), hv]⟩

/-- the record of a fragment whose properties can be saved -/
theorem serialize_spec (env : Env) (fg : Fore) (u : String) (f : Frag) (h : PlainTags env f.tags) :
    ∃ j, serialize env fg u f = .ok j ∧ j.get? "entityId" = some (.str u) ∧ j.get? "externalId" = some (.str (extOf u f)) ∧
      j.get? "parent" = some (.str (parentName fg f)) ∧ j.get? "flow" = some (.str f.flow.uuid) ∧
      j.get? "direction" = some (.dir f.dir) ∧ j.get? "isPrivate" = some (.bool f.priv) ∧
      j.get? "isBackground" = some (.bool f.bg) ∧ j.get? "isBalanceFlow" = some (.bool f.bal) ∧
      j.get? "exchangeValues" = some (.evs (saveEvs f.evs)) ∧ j.get? "terminations" = some (.terms (serTerms env fg f)) ∧
      j.get? "tags" = some (.tags f.tags) := by
  have hk := keys_eq (distinct_nodup h.distinct)
  have hfree : ∀ k ∈ recordKeys, k ∉ LDict.keys f.tags := by
    intro k hk' hm
    rw [hk] at hm
    obtain ⟨kv, hkv, rfl⟩ := List.mem_map.1 hm
    exact h.free kv hkv hk'
  have hfree' : ∀ k ∈ recordKeys, ∀ kv ∈ f.tags, kv.1 ≠ k := by
    rintro k hk' kv hkv rfl; exact h.free kv hkv hk'
  have hfull : ∀ k ∈ LDict.keys f.tags, k ∈ (fullRec env fg u f).keys := by
    intro k hm
    rw [hk] at hm
    simp only [fullRec, Dict.mem_keys_set]
    have := putTags_mem (j := [("entityId", .str u), ("entityType", .str "fragment"), ("externalId", .str (extOf u f)),
      ("parent", .str (parentName fg f))]) h.value (.inr hm)
    simp [this]
  obtain ⟨j, hj⟩ := popTags_ok (by rw [hk]; exact distinct_nodup h.distinct) hfull
  refine ⟨j, hj, ?_⟩
  have hg : ∀ k ∈ recordKeys, j.get? k = _ := fun k hk' => popTags_get hj k (hfree k hk')
  have hp : ∀ k ∈ recordKeys, ∀ j0 : Rec, (putTags f.tags j0).get? k = j0.get? k := fun k hk' j0 => putTags_get (hfree' k hk')
  refine ⟨?_, ?_, ?_, ?_, ?_, ?_, ?_, ?_, ?_, ?_, ?_⟩ <;>
    (rw [hg _ (by decide +kernel)]
     simp only [fullRec, Dict.get?_set, String.reduceEq, if_true, if_false]
     try rw [hp _ (by decide +kernel)]
     try simp [Dict.get?])

/-- **C117** a property whose value is None makes saving raise, whatever its name (unless it is the name of a field of the record) -/
theorem serialize_null (env : Env) (fg : Fore) (u : String) (f : Frag) (hd : LDict.Distinct env.lower f.tags) (k : String)
    (hk : (k, .null) ∈ f.tags) (hr : k ∉ recordKeys) : serialize env fg u f = .error .keyError := by
  have hn := distinct_nodup hd
  have hkeys := keys_eq hn
  have hpop : ∀ (ks : List String) (j : Rec), (∀ a ∈ ks, a = k ∨ True) → k ∈ ks → k ∉ j.keys → popTags ks j = .error .keyError := by
    intro ks
    induction ks with
    | nil => intro j _ h; exact absurd h List.not_mem_nil
    | cons a ks ih =>
      intro j _ hm hj
      rw [popTags]
      split
      · rename_i ha
        have hak : k ≠ a := by rintro rfl; exact hj ((Dict.has_iff _ _).1 ha)
        refine ih _ (fun _ _ => .inr trivial) ((List.mem_cons.1 hm).resolve_left hak) fun hmem => ?_
        exact hj ((Dict.keys_del_sublist j a).subset hmem)
      · rfl
  have hput : ∀ (tags : LDict.St String Val) (j : Rec), (∀ kv ∈ tags, kv.1 = k → kv.2 = .null) → k ∉ j.keys →
      k ∉ (putTags tags j).keys := by
    intro tags
    induction tags with
    | nil => intro j _ hj; exact hj
    | cons kv tags ih =>
      intro j h hj
      rw [putTags, List.foldl_cons]
      refine ih _ (fun x hx => h x (List.mem_cons_of_mem _ hx)) ?_
      split
      · exact hj
      · rename_i hne
        rw [Dict.mem_keys_set]
        rintro (rfl | h')
        · exact hne (h kv List.mem_cons_self rfl)
        · exact hj h'
  have huniq : ∀ kv ∈ f.tags, kv.1 = k → kv.2 = Val.null := by
    rintro ⟨a, v⟩ hm rfl
    have h1 := Dict.get?_eq_some_of_mem (d := (f.tags : Dict String Val)) hn hm
    have h2 := Dict.get?_eq_some_of_mem (d := (f.tags : Dict String Val)) hn hk
    rw [h1] at h2; exact Option.some.inj h2
  rw [serialize]
  apply hpop
  · exact fun _ _ => .inr trivial
  · rw [hkeys]; exact List.mem_map.2 ⟨_, hk, rfl⟩
  · simp only [fullRec, Dict.mem_keys_set]
    simp only [recordKeys, List.mem_cons, List.not_mem_nil, not_or] at hr
    have := hput f.tags [("entityId", .str u), ("entityType", .str "fragment"), ("externalId", .str (extOf u f)),
      ("parent", .str (parentName fg f))] huniq (by simp [Dict.keys]; tauto)
    tauto

theorem serAll_ok {env : Env} {fg : Fore} {us : List String} {js : List Rec} (h : serAll env fg us = .ok js) :
    List.Forall₂ (fun u j => ∃ f, fg.frags.get? u = some f ∧ serialize env fg u f = .ok j) us js := by
  induction us generalizing js with
  | nil => simp [serAll] at h; subst h; exact .nil
  | cons u us ih =>
    rw [serAll] at h
    cases hf : fg.frags.get? u with
    | none => rw [hf] at h; simp at h
    | some f =>
      rw [hf] at h
      simp only at h
      cases hs : serialize env fg u f with
      | error e => rw [hs] at h; simp at h
      | ok j =>
        rw [hs] at h
        simp only at h
        cases hr : serAll env fg us with
        | error e => rw [hr] at h; simp at h
        | ok r =>
          rw [hr] at h
          simp only [Except.ok.injEq] at h
          subst h
          exact .cons ⟨f, hf, hs⟩ (ih hr)

theorem serAll_append {env : Env} {fg : Fore} {us vs : List String} {js ks : List Rec} (h : serAll env fg us = .ok js)
    (h' : serAll env fg vs = .ok ks) : serAll env fg (us ++ vs) = .ok (js ++ ks) := by
  induction us generalizing js with
  | nil => simp [serAll] at h; subst h; simpa using h'
  | cons u us ih =>
    rw [serAll] at h
    rw [List.cons_append, serAll]
    cases hf : fg.frags.get? u with
    | none => rw [hf] at h; simp at h
    | some f =>
      rw [hf] at h
      simp only at h ⊢
      cases hs : serialize env fg u f with
      | error e => rw [hs] at h; simp at h
      | ok j =>
        rw [hs] at h
        simp only at h ⊢
        cases hr : serAll env fg us with
        | error e => rw [hr] at h; simp at h
        | ok r =>
          rw [hr] at h
          simp only [Except.ok.injEq] at h
          subst h
          rw [ih hr]; rfl

/-! ### files -/

/-- what is in the file of a reference fragment after it was saved -/
def Written (env : Env) (fg : Fore) (fuel : ℕ) (r : String) (c : Option (Option (List Rec))) : Prop :=
  ∃ us js, recurse fg fuel r = .ok us ∧ serAll env fg us = .ok js ∧ (∀ j ∈ js, dumpable j = true) ∧ c = some (some js)

theorem saveOne_ok {env : Env} {fg : Fore} {fuel : ℕ} {r : String} {d d' : Dir'} (h : saveOne env fg fuel r d = .ok () d') :
    ∃ us js, recurse fg fuel r = .ok us ∧ serAll env fg us = .ok js ∧ (∀ j ∈ js, dumpable j = true) ∧
      d' = d.set (fileOf r) (some js) := by
  rw [saveOne] at h
  cases hr : recurse fg fuel r with
  | error e => rw [hr] at h; simp at h
  | ok us =>
    rw [hr] at h
    simp only at h
    cases hs : serAll env fg us with
    | error e => rw [hs] at h; simp at h
    | ok js =>
      rw [hs] at h
      simp only at h
      split at h
      · rename_i hd
        injection h with _ h
        exact ⟨us, js, rfl, hs, by simpa using hd, h.symm⟩
      · simp at h

theorem saveOne_err {env : Env} {fg : Fore} {fuel : ℕ} {r : String} {d d' : Dir'} {e : Err} (h : saveOne env fg fuel r d = .err e d') :
    d' = d ∨ (e = .typeError ∧ d' = d.set (fileOf r) none) := by
  rw [saveOne] at h
  cases hr : recurse fg fuel r with
  | error e => rw [hr] at h; simp at h; exact .inl h.2.symm
  | ok us =>
    rw [hr] at h
    simp only at h
    cases hs : serAll env fg us with
    | error e => rw [hs] at h; simp at h; exact .inl h.2.symm
    | ok js =>
      rw [hs] at h
      simp only at h
      split at h
      · simp at h
      · injection h with h1 h2
        exact .inr ⟨h1.symm, h2.symm⟩

theorem saveLoop_ok {env : Env} {fg : Fore} {fuel : ℕ} {us : List String} {d d' : Dir'} (hn : us.Nodup)
    (h : saveLoop env fg fuel us d = .ok () d') :
    (∀ r ∈ us, Written env fg fuel r (d'.get? (fileOf r))) ∧ (∀ n, (∀ r ∈ us, n ≠ fileOf r) → d'.get? n = d.get? n) ∧
      (d.keys.Nodup → d'.keys.Nodup) := by
  induction us generalizing d with
  | nil => simp [saveLoop] at h; subst h; simp
  | cons u us ih =>
    have hn' := List.nodup_cons.1 hn
    rw [saveLoop] at h
    cases hs : saveOne env fg fuel u d with
    | err e d1 => rw [hs] at h; simp [Out.bind] at h
    | ok a d1 =>
      rw [hs] at h
      simp only [Out.bind] at h
      obtain ⟨us', js, h1, h2, h3, rfl⟩ := saveOne_ok hs
      obtain ⟨i1, i2, i3⟩ := ih hn'.2 h
      refine ⟨?_, ?_, fun hk => i3 (Dict.nodup_keys_set _ _ _ hk)⟩
      · intro r hr
        rcases List.mem_cons.1 hr with rfl | hr
        · refine ⟨us', js, h1, h2, h3, ?_⟩
          rw [i2 _ fun s hs e => hn'.1 (by rw [fileOf_inj e]; exact hs), Dict.get?_set_self]
        · exact i1 r hr
      · intro n hne
        rw [i2 n fun r hr => hne r (List.mem_cons_of_mem _ hr), Dict.get?_set_ne _ _ (hne u List.mem_cons_self).symm]

theorem foldl_del_get (ns : List String) (d : Dir') (n : String) :
    (ns.foldl Dict.del d).get? n = if n ∈ ns then none else d.get? n := by
  induction ns generalizing d with
  | nil => simp
  | cons a ns ih =>
    rw [List.foldl_cons, ih, Dict.get?_del']
    by_cases h : n ∈ ns
    · simp [h]
    · by_cases h' : a = n
      · simp [h']
      · simp [h, h', Ne.symm h']

theorem foldl_del_nodup (ns : List String) (d : Dir') (h : d.keys.Nodup) : (ns.foldl Dict.del d).keys.Nodup := by
  induction ns generalizing d with
  | nil => exact h
  | cons a ns ih => exact ih _ (Dict.nodup_keys_del _ _ h)

/-- the files after saving -/
theorem save_files (env : Env) (fg : Fore) (ht : Trees fg) (fuel : ℕ) (d d' : Dir')
    (h : saveFragments env fg fuel d = .ok () d') :
    (∀ r, Root fg r → Written env fg fuel r (d'.get? (fileOf r))) ∧ (∀ n, (∀ r, Root fg r → n ≠ fileOf r) → d'.get? n = none) ∧
      (d.keys.Nodup → d'.keys.Nodup) := by
  have hR : ∀ r, r ∈ roots fg none ↔ Root fg r := by intro r; rw [mem_roots ht]; simp
  rw [saveFragments] at h
  cases hs : saveLoop env fg fuel (roots fg none) d with
  | err e d1 => rw [hs] at h; simp [Out.bind] at h
  | ok a d1 =>
    rw [hs] at h
    simp only [Out.bind, Out.ok.injEq, true_and] at h
    obtain ⟨i1, i2, i3⟩ := saveLoop_ok (nodup_roots ht none) hs
    subst h
    refine ⟨?_, ?_, fun hk => foldl_del_nodup _ _ (i3 hk)⟩
    · intro r hr
      rw [foldl_del_get, if_neg]
      · exact i1 r ((hR r).2 hr)
      · intro hm
        have := (List.mem_filter.1 hm).2
        simp only [Bool.not_eq_true', List.contains_eq_mem, decide_eq_false_iff_not, List.mem_map, not_exists, not_and] at this
        exact this r ((hR r).2 hr) rfl
    · intro n hn
      rw [foldl_del_get]
      split
      · rfl
      · rename_i hm
        rw [i2 n fun r hr => hn r ((hR r).1 hr)]
        rw [← Dict.not_mem_keys_iff]
        intro hk
        refine hm (List.mem_filter.2 ⟨hk, ?_⟩)
        simp only [Bool.not_eq_true', List.contains_eq_mem, decide_eq_false_iff_not, List.mem_map, not_exists, not_and]
        intro r hr e
        exact hn r ((hR r).1 hr) e.symm

/-- the uuids of the fragments in a file -/
def uuidsIn (js : List Rec) : List (Option J) := js.map fun j => j.get? "entityId"

theorem uuidsIn_eq {env : Env} {fg : Fore} {us : List String} {js : List Rec} (h : serAll env fg us = .ok js)
    (hp : ∀ u ∈ us, ∀ f, fg.frags.get? u = some f → PlainTags env f.tags) : uuidsIn js = us.map fun u => some (.str u) := by
  have := serAll_ok h
  clear h
  induction this with
  | nil => rfl
  | @cons u j us js hu _ ih =>
    obtain ⟨f, hf, hs⟩ := hu
    obtain ⟨j', hj', he, -⟩ := serialize_spec env fg u f (hp u List.mem_cons_self f hf)
    rw [hs] at hj'; obtain rfl := Except.ok.inj hj'
    simp only [uuidsIn, List.map_cons, he]
    rw [← ih fun u hu => hp u (List.mem_cons_of_mem _ hu)]; rfl

/-- **C116** After `save_fragments` returned there is one file for each reference fragment in the foreground, with exactly the
fragments of its tree, each once; all other files are gone. -/
theorem save_directory (env : Env) (fg : Fore) (ht : Trees fg) (fuel : ℕ) (d d' : Dir')
    (hp : ∀ u f, fg.frags.get? u = some f → PlainTags env f.tags)
    (h : saveFragments env fg fuel d = .ok () d') :
    (∀ n, n ∈ d'.keys ↔ ∃ r, Root fg r ∧ n = r ++ ".json") ∧
    ∀ r, Root fg r → ∃ (us : List String) (js : List Rec), d'.get? (r ++ ".json") = some (some js) ∧ uuidsIn js = us.map (fun u => some (.str u)) ∧ us.Nodup ∧
      ∀ x, x ∈ us ↔ Below fg x r := by
  obtain ⟨h1, h2, -⟩ := save_files env fg ht fuel d d' h
  constructor
  · intro n
    rw [Dict.mem_keys_iff]
    constructor
    · rintro ⟨v, hv⟩
      by_contra hne
      simp only [not_exists, not_and] at hne
      rw [h2 n fun r hr e => hne r hr e] at hv
      simp at hv
    · rintro ⟨r, hr, rfl⟩
      obtain ⟨us, js, -, -, -, hc⟩ := h1 r hr
      exact ⟨_, hc⟩
  · intro r hr
    obtain ⟨us, js, hrec, hser, -, hc⟩ := h1 r hr
    exact ⟨us, js, hc, uuidsIn_eq hser fun u _ f hf => hp u f hf, recurse_nodup ht hrec, recurse_mem ht hrec⟩

/-! ### C117 a save that raises -/

theorem saveLoop_err {env : Env} {fg : Fore} {fuel : ℕ} {us : List String} {d d' : Dir'} {e : Err} (hn : us.Nodup)
    (h : saveLoop env fg fuel us d = .err e d') :
    ∃ A r B, us = A ++ r :: B ∧ (∀ a ∈ A, Written env fg fuel a (d'.get? (fileOf a))) ∧
      (∀ n, (∀ a ∈ A, n ≠ fileOf a) → n ≠ fileOf r → d'.get? n = d.get? n) ∧
      (d'.get? (fileOf r) = d.get? (fileOf r) ∨ (e = .typeError ∧ d'.get? (fileOf r) = some none)) := by
  induction us generalizing d with
  | nil => simp [saveLoop] at h
  | cons u us ih =>
    have hn' := List.nodup_cons.1 hn
    rw [saveLoop] at h
    cases hs : saveOne env fg fuel u d with
    | err e1 d1 =>
      rw [hs] at h
      simp only [Out.bind, Out.err.injEq] at h
      obtain ⟨rfl, rfl⟩ := h
      refine ⟨[], u, us, rfl, by simp, ?_, ?_⟩
      · intro n _ hne
        rcases saveOne_err hs with rfl | ⟨-, rfl⟩
        · rfl
        · exact Dict.get?_set_ne _ _ hne.symm
      · rcases saveOne_err hs with rfl | ⟨he, rfl⟩
        · exact .inl rfl
        · exact .inr ⟨he, Dict.get?_set_self _ _ _⟩
    | ok a d1 =>
      rw [hs] at h
      simp only [Out.bind] at h
      obtain ⟨us', js, h1, h2, h3, rfl⟩ := saveOne_ok hs
      obtain ⟨A, r, B, rfl, i1, i2, i3⟩ := ih hn'.2 h
      have hur : u ≠ r := fun e => hn'.1 (by simp [e])
      have huA : ∀ a ∈ A, u ≠ a := fun a ha e => hn'.1 (by simp [e, ha])
      refine ⟨u :: A, r, B, rfl, ?_, ?_, ?_⟩
      · intro a ha
        rcases List.mem_cons.1 ha with rfl | ha
        · refine ⟨us', js, h1, h2, h3, ?_⟩
          rw [i2 _ (fun b hb e => huA b hb (fileOf_inj e)) (fun e => hur (fileOf_inj e)), Dict.get?_set_self]
        · exact i1 a ha
      · intro n hA hne
        rw [i2 n (fun a ha => hA a (List.mem_cons_of_mem _ ha)) hne, Dict.get?_set_ne _ _ (hA u List.mem_cons_self).symm]
      · rcases i3 with i3 | i3
        · exact .inl (i3.trans (Dict.get?_set_ne _ _ fun e => hur (fileOf_inj e)))
        · exact .inr i3

/-- **C117** (partial) When `save_fragments` raises, no file is deleted; the files of some reference fragments have been rewritten, and
one at most is damaged, which happens only with a TypeError. Partial: the damaged file (see `save_typeError_unloadable`). -/
theorem save_raises_partial (env : Env) (fg : Fore) (ht : Trees fg) (fuel : ℕ) (d d' : Dir') (e : Err)
    (h : saveFragments env fg fuel d = .err e d') :
    ∃ (A : List String) (r : String), Root fg r ∧ (∀ a ∈ A, Root fg a ∧ Written env fg fuel a (d'.get? (fileOf a))) ∧
      (∀ n, (∀ a ∈ A, n ≠ fileOf a) → n ≠ fileOf r → d'.get? n = d.get? n) ∧
      (d'.get? (fileOf r) = d.get? (fileOf r) ∨ (e = .typeError ∧ d'.get? (fileOf r) = some none)) := by
  have hR : ∀ r, r ∈ roots fg none → Root fg r := fun r hr => ((mem_roots ht none r).1 hr).1
  rw [saveFragments] at h
  cases hs : saveLoop env fg fuel (roots fg none) d with
  | ok a d1 => rw [hs] at h; simp [Out.bind] at h
  | err e1 d1 =>
    rw [hs] at h
    simp only [Out.bind, Out.err.injEq] at h
    obtain ⟨rfl, rfl⟩ := h
    obtain ⟨A, r, B, heq, i1, i2, i3⟩ := saveLoop_err (nodup_roots ht none) hs
    exact ⟨A, r, hR r (by simp [heq]), fun a ha => ⟨hR a (by simp [heq, ha]), i1 a ha⟩, i2, i3⟩

theorem recurse_no_typeError (fg : Fore) (n : ℕ) (u : String) : recurse fg n u ≠ .error .typeError := by
  induction n generalizing u with
  | zero => simp [recurse]
  | succ n ih =>
    rw [recurse]
    cases fg.frags.get? u with
    | none => simp
    | some f =>
      simp only
      have : mapCat (recurse fg n) (children f) ≠ .error .typeError := by
        induction children f with
        | nil => simp [mapCat]
        | cons c cs ihc =>
          rw [mapCat]
          cases hc : recurse fg n c with
          | error e => simp only; intro h; exact ih c (hc.trans h)
          | ok l =>
            simp only
            cases hm : mapCat (recurse fg n) cs with
            | error e => simp only; intro h; exact ihc (hm.trans h)
            | ok m => simp
      cases hm : mapCat (recurse fg n) (children f) with
      | error e => simp only; intro h; exact this (hm.trans h)
      | ok m => simp

theorem popTags_no_typeError (ks : List String) (j : Rec) : popTags ks j ≠ .error .typeError := by
  induction ks generalizing j with
  | nil => simp [popTags]
  | cons k ks ih =>
    rw [popTags]
    split
    · exact ih _
    · simp

theorem serAll_no_typeError (env : Env) (fg : Fore) (us : List String) : serAll env fg us ≠ .error .typeError := by
  induction us with
  | nil => simp [serAll]
  | cons u us ih =>
    rw [serAll]
    cases fg.frags.get? u with
    | none => simp
    | some f =>
      simp only
      cases hs : serialize env fg u f with
      | error e =>
        simp only; intro h
        rw [Except.error.inj h] at hs; exact popTags_no_typeError _ _ hs
      | ok j =>
        simp only
        cases hr : serAll env fg us with
        | error e => simp only; intro h; exact ih (hr.trans h)
        | ok r => simp

/-- a TypeError leaves a file damaged -/
theorem saveLoop_typeError {env : Env} {fg : Fore} {fuel : ℕ} {us : List String} {d d' : Dir'}
    (h : saveLoop env fg fuel us d = .err .typeError d') : ∃ r ∈ us, d'.get? (fileOf r) = some none := by
  induction us generalizing d with
  | nil => simp [saveLoop] at h
  | cons u us ih =>
    rw [saveLoop] at h
    cases hs : saveOne env fg fuel u d with
    | ok a d1 =>
      rw [hs] at h
      simp only [Out.bind] at h
      obtain ⟨r, hr, hd⟩ := ih h
      exact ⟨r, List.mem_cons_of_mem _ hr, hd⟩
    | err e1 d1 =>
      rw [hs] at h
      simp only [Out.bind, Out.err.injEq] at h
      obtain ⟨rfl, rfl⟩ := h
      refine ⟨u, List.mem_cons_self, ?_⟩
      rw [saveOne] at hs
      cases hr : recurse fg fuel u with
      | error e => rw [hr] at hs; simp at hs; exact absurd (hs.1 ▸ hr) (recurse_no_typeError fg fuel u)
      | ok vs =>
        rw [hr] at hs
        simp only at hs
        cases hv : serAll env fg vs with
        | error e => rw [hv] at hs; simp at hs; exact absurd (hs.1 ▸ hv) (serAll_no_typeError env fg vs)
        | ok js =>
          rw [hv] at hs
          simp only at hs
          split at hs
          · simp at hs
          · injection hs with _ h2
            rw [← h2]; exact Dict.get?_set_self _ _ _

theorem readFiles_bad (d : Dir') (ns : List String) (n : String) (hn : n ∈ ns) (hd : d.get? n = some none) :
    ∃ e, readFiles d ns = .error e := by
  induction ns with
  | nil => exact absurd hn List.not_mem_nil
  | cons a ns ih =>
    rw [readFiles]
    rcases List.mem_cons.1 hn with rfl | hn
    · rw [hd]; exact ⟨_, rfl⟩
    · obtain ⟨e, he⟩ := ih hn
      split
      · rw [he]; exact ⟨e, rfl⟩
      · exact ⟨_, rfl⟩

/-- **C117** is false: when saving raises TypeError (a property that JSON cannot hold), the file of the fragment has been emptied, and
from then on the foreground cannot be loaded at all, in whatever order the files are read. -/
theorem save_typeError_unloadable (env : Env) (fg : Fore) (fuel : ℕ) (d d' : Dir') (o lo : PyOrd String) (ix : Ix)
    (h : saveFragments env fg fuel d = .err .typeError d') : ∃ e, loadFragments env o lo ix d' = .error e := by
  rw [saveFragments] at h
  cases hs : saveLoop env fg fuel (roots fg none) d with
  | ok a d1 => rw [hs] at h; simp [Out.bind] at h
  | err e1 d1 =>
    rw [hs] at h
    simp only [Out.bind, Out.err.injEq] at h
    obtain ⟨rfl, rfl⟩ := h
    obtain ⟨r, -, hd⟩ := saveLoop_typeError hs
    obtain ⟨e, he⟩ := readFiles_bad d1 (lo.f d1.keys) (fileOf r) ((lo.mem _ _).2 ((Dict.mem_keys_iff _ _).2 ⟨_, hd⟩)) hd
    exact ⟨e, by rw [loadFragments, he]⟩

end FgS
