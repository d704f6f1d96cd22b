import Mathlib.Data.List.Perm.Basic
import Mathlib.Data.List.Nodup
import Mathlib.Tactic.Tauto
import Verif.Model.Foreground

/-!
C44: naming a fragment of a foreground keeps all lookups consistent. C55: adding entities to a foreground.
-/

set_option linter.unusedSectionVars false

namespace Fg

/-! ### specification -/

/-- `self[key]` may give `r`: under some order of iteration over sets -/
def Answers (env : Env) (st : St) (key : Str) (r : Option ℕ) : Prop := ∃ o, getitem env o st key = r

/-- the link that the entity has under another name -/
def Ent.linkAs (x : Ent) (name : Str) : Str := x.origin.getD "None".toList ++ '/' :: name

/-- the four dictionaries describe one set of stored entities -/
structure Inv (st : St) : Prop where
  nodup : st.ents.keys.Nodup
  link : ∀ l e, st.ents.get? l = some e → ∃ x, st.obj e = some x ∧ x.link = l ∧ x.origin ≠ none
  uuids : ∀ u l, l ∈ (st.uuids.get? u).getD [] ↔ ∃ e x, st.ents.get? l = some e ∧ st.obj e = some x ∧ x.uuid = u
  types : ∀ t l, l ∈ (st.byType.get? t).getD [] ↔ ∃ e x, st.ents.get? l = some e ∧ st.obj e = some x ∧ x.etype = t
  nodupU : ∀ u, ((st.uuids.get? u).getD []).Nodup
  nodupT : ∀ t, ((st.byType.get? t).getD []).Nodup
  names : ∀ n l, st.names.get? n = some l → ∃ e x, st.ents.get? l = some e ∧ st.obj e = some x ∧ x.ext = some n

/-! ### lookups -/

/-- an order that puts `a` first -/
def firstOrd {α : Type} [DecidableEq α] (a : α) : PyOrd α where
  f m := if a ∈ m then a :: m.erase a else m
  perm m := by
    split
    · rename_i h; exact (List.perm_cons_erase h).symm
    · exact .refl _

theorem head_first {α : Type} [DecidableEq α] (a : α) (m : List α) (h : a ∈ m) : ((firstOrd a).f m).head? = some a := by
  simp [firstOrd, h]

theorem answers_iff (env : Env) (st : St) (key : Str) (r : Option ℕ) :
    Answers env st key r ↔
      match st.ents.get? key with
      | some e => r = some e
      | none =>
        match st.names.get? key with
        | some l => r = st.ents.get? l
        | none =>
          match env.tu key with
          | none => r = none
          | some u => ((st.uuids.get? u).getD [] = [] ∧ r = none) ∨ ∃ l ∈ (st.uuids.get? u).getD [], r = st.ents.get? l := by
  unfold Answers getitem keyToId
  cases h1 : st.ents.get? key with
  | some e =>
    simp only [Dict.has, h1, Option.isSome_some, if_true]
    exact ⟨fun ⟨_, h⟩ => h.symm, fun h => ⟨PyOrd.id _, h.symm⟩⟩
  | none =>
    simp only [Dict.has, h1, Option.isSome_none, if_false, Bool.false_eq_true]
    cases h2 : st.names.get? key with
    | some l => exact ⟨fun ⟨_, h⟩ => h.symm, fun h => ⟨PyOrd.id _, h.symm⟩⟩
    | none =>
      dsimp only
      cases h3 : env.tu key with
      | none => exact ⟨fun ⟨_, h⟩ => h.symm, fun h => ⟨PyOrd.id _, h.symm⟩⟩
      | some u =>
        dsimp only
        cases h4 : st.uuids.get? u with
        | none =>
          simp only [Option.getD_none, List.not_mem_nil, false_and, exists_false, or_false, true_and]
          exact ⟨fun ⟨_, h⟩ => h.symm, fun h => ⟨PyOrd.id _, h.symm⟩⟩
        | some ls =>
          simp only [Option.getD_some]
          constructor
          · rintro ⟨o, h⟩
            cases h5 : (o.f ls).head? with
            | none =>
              rw [h5] at h
              left
              rw [List.head?_eq_none_iff] at h5
              have := o.perm ls
              rw [h5] at this
              exact ⟨this.symm.eq_nil, h.symm⟩
            | some l =>
              rw [h5] at h
              right
              exact ⟨l, (o.mem ls l).1 (List.mem_of_mem_head? h5), h.symm⟩
          · rintro (⟨h, rfl⟩ | ⟨l, hl, rfl⟩)
            · subst h
              exact ⟨PyOrd.id _, rfl⟩
            · refine ⟨firstOrd l, ?_⟩
              rw [head_first l ls hl]

theorem mem_addTo (d : Dict Str (List Str)) (k x k' x' : Str) :
    x' ∈ ((addTo d k x).get? k').getD [] ↔ x' ∈ (d.get? k').getD [] ∨ (k' = k ∧ x' = x) := by
  unfold addTo
  rw [Dict.get?_set]
  split
  · rename_i h; subst h; simp
  · rename_i h
    have : ¬ k' = k := fun hh => h hh.symm
    simp [this]

theorem nodup_addTo (d : Dict Str (List Str)) (k x : Str) (h : ∀ k', ((d.get? k').getD []).Nodup) (k' : Str) :
    (((addTo d k x).get? k').getD []).Nodup := by
  unfold addTo
  rw [Dict.get?_set]
  split
  · exact PySet.nodup_add (h k)
  · exact h k'

theorem removeFrom_ok (d : Dict Str (List Str)) (k x : Str) (h : ∀ k', ((d.get? k').getD []).Nodup)
    (hx : x ∈ (d.get? k).getD []) :
    ∃ d', removeFrom d k x = .ok d' ∧ (∀ k', ((d'.get? k').getD []).Nodup) ∧
      (∀ k' x', x' ∈ (d'.get? k').getD [] ↔ x' ∈ (d.get? k').getD [] ∧ ¬ (k' = k ∧ x' = x)) ∧
      (d'.get? k).getD [] = ((d.get? k).getD []).erase x := by
  refine ⟨_, if_pos hx, ?_, ?_, by simp⟩
  · intro k'
    rw [Dict.get?_set]
    split
    · exact (h k).erase x
    · exact h k'
  · intro k' x'
    rw [Dict.get?_set]
    split
    · rename_i hk
      subst hk
      simp only [Option.getD_some, (h k).mem_erase_iff, true_and]
      tauto
    · rename_i hk
      have : ¬ k' = k := fun hh => hk hh.symm
      simp [this]

theorem obj_setObj (st : St) (e : ℕ) (y : Ent) (h : e < st.heap.length) (e' : ℕ) :
    (setObj st e y).obj e' = if e' = e then some y else st.obj e' := by
  unfold setObj St.obj
  simp only [List.getElem?_set]
  by_cases hh : e' = e
  · subst hh; simp [h]
  · have : ¬ e = e' := fun h => hh h.symm
    simp [this, hh]

theorem obj_lt {st : St} {e : ℕ} {x : Ent} (h : st.obj e = some x) : e < st.heap.length := by
  unfold St.obj at h
  exact (List.getElem?_eq_some_iff.1 h).1

/-- an object is stored under its own link only -/
theorem Inv.link_eq {st : St} (h : Inv st) {l : Str} {e : ℕ} {x : Ent} (h1 : st.ents.get? l = some e) (h2 : st.obj e = some x) :
    x.link = l := by
  obtain ⟨y, h3, h4, -⟩ := h.link l e h1
  rw [h2] at h3
  simp only [Option.some.injEq] at h3
  subst h3
  exact h4

/-! ### naming -/

/-- **A taken name is refused without any change**: a name under which something is found, or the UUID of something stored. -/
theorem name_taken (env : Env) (o : PyOrd Str) (st : St) (f : ℕ) (name : Str) (x : Ent) (hx : st.obj f = some x)
    (hs : getitem env o st x.link = some f)
    (ht : ∃ e, getitem env o st name = some e) : nameFragment env o st f name = .err .valueError st := by
  unfold nameFragment
  rw [hx]
  dsimp only
  rw [if_neg (by rw [hs]; simp), if_pos]
  obtain ⟨e, he⟩ := ht
  intro hk
  unfold getitem at he
  rw [hk] at he
  simp at he

/-- **A fragment that has a name keeps it**, and one that is not stored is not named: no change. -/
theorem name_refused (env : Env) (o : PyOrd Str) (st : St) (f : ℕ) (name : Str) (x : Ent) (hx : st.obj f = some x)
    (h : getitem env o st x.link ≠ some f ∨ x.ext ≠ none) :
    ∃ er, nameFragment env o st f name = .err er st := by
  unfold nameFragment
  rw [hx]
  dsimp only
  by_cases h1 : getitem env o st x.link ≠ some f
  · rw [if_pos h1]; exact ⟨_, rfl⟩
  · rw [if_neg h1]
    by_cases h2 : keyToId env o st name ≠ none
    · rw [if_pos h2]; exact ⟨_, rfl⟩
    · rw [if_neg h2]
      unfold Ent.setExt
      cases h3 : x.ext with
      | some n => exact ⟨_, rfl⟩
      | none =>
        rcases h with h | h
        · exact absurd h h1
        · exact absurd h3 h

/-- **A fragment that is named is found under its name, its new link and its UUID; nothing else changes.** Partial: no stored entity
has the link that the fragment gets. -/
theorem name_fragment_partial (env : Env) (o : PyOrd Str) (st : St) (hi : Inv st) (f : ℕ) (name : Str) (x : Ent)
    (hx : st.obj f = some x) (hs : st.ents.get? x.link = some f) (hf : x.etype = "fragment".toList) (he : x.ext = none)
    (hk : keyToId env o st name = none) (hfree : st.ents.get? (x.linkAs name) = none) :
    ∃ st', nameFragment env o st f name = .ok () st' ∧ Inv st' ∧
      (∃ y, st'.obj f = some y ∧ y.ref = name ∧ y.link = x.linkAs name ∧ y.uuid = x.uuid) ∧
      (∀ r, Answers env st' name r ↔ r = some f) ∧
      (∀ r, Answers env st' (x.linkAs name) r ↔ r = some f) ∧
      ('/' ∉ x.uuid → ∀ r, Answers env st' x.uuid r ↔ Answers env st x.uuid r) ∧
      (∀ key, key ≠ name → key ≠ x.linkAs name → key ≠ x.link → ∀ r, Answers env st' key r ↔ Answers env st key r) ∧
      (∀ t, (entitiesOf st' t).Perm (entitiesOf st t)) ∧
      (∀ e, e ≠ f → st'.obj e = st.obj e) := by
  have hlt := obj_lt hx
  have hne : name ≠ x.uuid := by
    intro h
    subst h
    have : x.linkAs x.uuid = x.link := by simp [Ent.linkAs, Ent.link, Ent.ref, he]
    rw [this, hs] at hfree
    simp at hfree
  obtain ⟨y, hy⟩ : ∃ y : Ent, y = { x with ext := some name } := ⟨_, rfl⟩
  have hylink : y.link = x.linkAs name := by subst hy; rfl
  have hyu : y.uuid = x.uuid := by subst hy; rfl
  have hyt : y.etype = x.etype := by subst hy; rfl
  have hyo : y.origin = x.origin := by subst hy; rfl
  have hye : y.ext = some name := by subst hy; rfl
  have hset : x.setExt name = .ok y := by
    unfold Ent.setExt
    rw [he]
    dsimp only
    rw [if_pos hne, hy]
  -- the old and the new link differ
  have hnew : x.linkAs name ≠ x.link := by
    intro h
    rw [h, hs] at hfree
    simp at hfree
  have hnames : st.names.get? name = none ∧ st.ents.get? name = none := by
    unfold keyToId at hk
    split at hk
    · simp at hk
    · rename_i h1
      refine ⟨?_, ?_⟩
      · cases h2 : st.names.get? name with
        | none => rfl
        | some l => rw [h2] at hk; simp at hk
      · cases h2 : st.ents.get? name with
        | none => rfl
        | some e => rw [Dict.has, h2] at h1; simp at h1
  have hgetl : getitem env o st x.link = some f := by
    unfold getitem keyToId
    rw [if_pos (by rw [Dict.has, hs]; rfl)]
    exact hs
  have hou : x.link ∈ (st.uuids.get? x.uuid).getD [] := (hi.uuids _ _).2 ⟨f, x, hs, hx, rfl⟩
  have hot : x.link ∈ (st.byType.get? "fragment".toList).getD [] := (hi.types _ _).2 ⟨f, x, hs, hx, hf⟩
  obtain ⟨us, hus, hus1, hus2, hus3⟩ := removeFrom_ok st.uuids x.uuid x.link hi.nodupU hou
  obtain ⟨bt, hbt, hbt1, hbt2, hbt3⟩ := removeFrom_ok st.byType "fragment".toList x.link hi.nodupT hot
  obtain ⟨st', hst'⟩ : ∃ st' : St, st' = ⟨st.heap.set f y, (st.ents.del x.link).set y.link f, st.names.set name y.link, addTo us x.uuid y.link,
      addTo bt "fragment".toList y.link⟩ := ⟨_, rfl⟩
  have hres : nameFragment env o st f name = .ok () st' := by
    unfold nameFragment
    rw [hx]
    dsimp only
    rw [if_neg (by rw [hgetl]; simp), if_neg (by rw [hk]; simp), hset]
    dsimp only [rename, setObj]
    rw [hs, hyu]
    dsimp only
    rw [hus]
    dsimp only
    rw [hbt, hst']
  have hents : ∀ l, st'.ents.get? l = if l = y.link then some f else if l = x.link then none else st.ents.get? l := by
    intro l
    subst hst'
    dsimp only
    rw [Dict.get?_set, Dict.get?_del _ hi.nodup]
    by_cases h1 : l = y.link
    · simp [h1]
    · have h2 : ¬ y.link = l := fun h => h1 h.symm
      by_cases h3 : l = x.link
      · rw [if_neg h2, if_neg h1, if_pos h3, if_pos h3.symm]
      · have h4 : ¬ x.link = l := fun h => h3 h.symm
        simp [h1, h2, h3, h4]
  have hobj : ∀ e, st'.obj e = if e = f then some y else st.obj e := by
    intro e
    subst hst'
    exact obj_setObj st f y hlt e
  have hfold : ∀ l e, st.ents.get? l = some e → l ≠ x.link → e ≠ f := by
    intro l e hl hne he
    subst he
    exact hne (hi.link_eq hl hx).symm
  -- a stored link, other than the old one, leads to the same entity as before
  have hsame : ∀ l, st.ents.get? l ≠ none → l ≠ x.link → st'.ents.get? l = st.ents.get? l := by
    intro l hl hne
    rw [hents]
    rw [if_neg, if_neg hne]
    intro h
    rw [h, hylink] at hl
    exact hl hfree
  have hstored : ∀ l e z, st'.ents.get? l = some e ∧ st'.obj e = some z ↔
      (l = y.link ∧ e = f ∧ z = y) ∨ (l ≠ x.link ∧ l ≠ y.link ∧ st.ents.get? l = some e ∧ st.obj e = some z) := by
    intro l e z
    rw [hents, hobj]
    by_cases h1 : l = y.link
    · rw [if_pos h1]
      constructor
      · rintro ⟨h2, h3⟩
        simp only [Option.some.injEq] at h2
        subst h2
        rw [if_pos rfl] at h3
        simp only [Option.some.injEq] at h3
        exact Or.inl ⟨h1, rfl, h3.symm⟩
      · rintro (⟨-, rfl, rfl⟩ | ⟨-, h2, -⟩)
        · simp
        · exact absurd h1 h2
    · rw [if_neg h1]
      by_cases h2 : l = x.link
      · rw [if_pos h2]
        constructor
        · rintro ⟨h, -⟩; simp at h
        · rintro (⟨h, -⟩ | ⟨h, -⟩)
          · exact absurd h h1
          · exact absurd h2 h
      · rw [if_neg h2]
        constructor
        · rintro ⟨h3, h4⟩
          rw [if_neg (hfold l e h3 h2)] at h4
          exact Or.inr ⟨h2, h1, h3, h4⟩
        · rintro (⟨h3, -⟩ | ⟨-, -, h3, h4⟩)
          · exact absurd h3 h1
          · rw [if_neg (hfold l e h3 h2)]
            exact ⟨h3, h4⟩
  have huuids : ∀ u l, l ∈ (st'.uuids.get? u).getD [] ↔
      (l ∈ (st.uuids.get? u).getD [] ∧ l ≠ x.link) ∨ (u = x.uuid ∧ l = y.link) := by
    intro u l
    subst hst'
    dsimp only
    rw [mem_addTo, hus2]
    constructor
    · rintro (⟨h1, h2⟩ | h)
      · left
        refine ⟨h1, ?_⟩
        intro h3
        apply h2
        refine ⟨?_, h3⟩
        obtain ⟨e, z, h4, h5, h6⟩ := (hi.uuids u l).1 h1
        rw [h3, hs] at h4
        simp only [Option.some.injEq] at h4
        subst h4
        rw [hx] at h5
        simp only [Option.some.injEq] at h5
        subst h5
        exact h6.symm
      · exact Or.inr h
    · rintro (⟨h1, h2⟩ | h)
      · exact Or.inl ⟨h1, fun h3 => h2 h3.2⟩
      · exact Or.inr h
  have htypes : ∀ t l, l ∈ (st'.byType.get? t).getD [] ↔
      (l ∈ (st.byType.get? t).getD [] ∧ l ≠ x.link) ∨ (t = "fragment".toList ∧ l = y.link) := by
    intro t l
    subst hst'
    dsimp only
    rw [mem_addTo, hbt2]
    constructor
    · rintro (⟨h1, h2⟩ | h)
      · left
        refine ⟨h1, ?_⟩
        intro h3
        apply h2
        refine ⟨?_, h3⟩
        obtain ⟨e, z, h4, h5, h6⟩ := (hi.types t l).1 h1
        rw [h3, hs] at h4
        simp only [Option.some.injEq] at h4
        subst h4
        rw [hx] at h5
        simp only [Option.some.injEq] at h5
        subst h5
        rw [← h6, hf]
      · exact Or.inr h
    · rintro (⟨h1, h2⟩ | h)
      · exact Or.inl ⟨h1, fun h3 => h2 h3.2⟩
      · exact Or.inr h
  have hynot : ∀ l, st.ents.get? l ≠ none → l ≠ y.link := by
    intro l hl h
    rw [h, hylink] at hl
    exact hl hfree
  have hinv : Inv st' := by
    refine ⟨?_, ?_, ?_, ?_, ?_, ?_, ?_⟩
    · subst hst'
      exact Dict.nodup_keys_set _ _ _ (Dict.nodup_keys_del _ _ hi.nodup)
    · intro l e hl
      rw [hents] at hl
      by_cases h1 : l = y.link
      · rw [if_pos h1] at hl
        simp only [Option.some.injEq] at hl
        subst hl
        refine ⟨y, by rw [hobj, if_pos rfl], h1.symm, ?_⟩
        rw [hyo]
        obtain ⟨z, hz, -, hzo⟩ := hi.link _ _ hs
        rw [hx] at hz
        simp only [Option.some.injEq] at hz
        subst hz
        exact hzo
      · rw [if_neg h1] at hl
        by_cases h2 : l = x.link
        · rw [if_pos h2] at hl; simp at hl
        · rw [if_neg h2] at hl
          obtain ⟨z, hz1, hz2, hz3⟩ := hi.link _ _ hl
          exact ⟨z, by rw [hobj, if_neg (hfold l e hl h2)]; exact hz1, hz2, hz3⟩
    · intro u l
      rw [huuids, hi.uuids]
      constructor
      · rintro (⟨⟨e, z, h1, h2, h3⟩, h4⟩ | ⟨rfl, rfl⟩)
        · refine ⟨e, z, ?_⟩
          rw [← and_assoc, hstored]
          exact ⟨Or.inr ⟨h4, hynot l (by rw [h1]; simp), h1, h2⟩, h3⟩
        · refine ⟨f, y, ?_⟩
          rw [← and_assoc, hstored]
          exact ⟨Or.inl ⟨rfl, rfl, rfl⟩, hyu⟩
      · rintro ⟨e, z, h⟩
        rw [← and_assoc, hstored] at h
        rcases h with ⟨⟨rfl, rfl, rfl⟩ | ⟨h1, -, h3, h4⟩, h5⟩
        · exact Or.inr ⟨by rw [← h5, hyu], rfl⟩
        · exact Or.inl ⟨⟨e, z, h3, h4, h5⟩, h1⟩
    · intro t l
      rw [htypes, hi.types]
      constructor
      · rintro (⟨⟨e, z, h1, h2, h3⟩, h4⟩ | ⟨rfl, rfl⟩)
        · refine ⟨e, z, ?_⟩
          rw [← and_assoc, hstored]
          exact ⟨Or.inr ⟨h4, hynot l (by rw [h1]; simp), h1, h2⟩, h3⟩
        · refine ⟨f, y, ?_⟩
          rw [← and_assoc, hstored]
          exact ⟨Or.inl ⟨rfl, rfl, rfl⟩, by rw [hyt, hf]⟩
      · rintro ⟨e, z, h⟩
        rw [← and_assoc, hstored] at h
        rcases h with ⟨⟨rfl, rfl, rfl⟩ | ⟨h1, -, h3, h4⟩, h5⟩
        · exact Or.inr ⟨by rw [← h5, hyt, hf], rfl⟩
        · exact Or.inl ⟨⟨e, z, h3, h4, h5⟩, h1⟩
    · intro u
      subst hst'
      exact nodup_addTo _ _ _ hus1 u
    · intro t
      subst hst'
      exact nodup_addTo _ _ _ hbt1 t
    · intro n l hn
      have hn' : (st.names.set name y.link).get? n = some l := by subst hst'; exact hn
      rw [Dict.get?_set] at hn'
      split at hn'
      · rename_i h
        subst h
        simp only [Option.some.injEq] at hn'
        refine ⟨f, y, ?_⟩
        rw [← and_assoc, hstored]
        exact ⟨Or.inl ⟨hn'.symm, rfl, rfl⟩, hye⟩
      · obtain ⟨e, z, h1, h2, h3⟩ := hi.names n l hn'
        refine ⟨e, z, ?_⟩
        rw [← and_assoc, hstored]
        refine ⟨Or.inr ⟨?_, hynot l (by rw [h1]; simp), h1, h2⟩, h3⟩
        intro h4
        rw [h4, hs] at h1
        simp only [Option.some.injEq] at h1
        subst h1
        rw [hx] at h2
        simp only [Option.some.injEq] at h2
        subst h2
        rw [he] at h3
        simp at h3
  -- lookups by any other key
  have hother : ∀ key, key ≠ name → key ≠ x.linkAs name → key ≠ x.link → ∀ r, Answers env st' key r ↔ Answers env st key r := by
    intro key h1 h2 h3 r
    rw [answers_iff, answers_iff]
    have h4 : st'.ents.get? key = st.ents.get? key := by
      rw [hents, if_neg (by rw [hylink]; exact h2), if_neg h3]
    have h5 : st'.names.get? key = st.names.get? key := by
      subst hst'
      exact Dict.get?_set_ne _ _ (Ne.symm h1)
    rw [h4, h5]
    cases hc1 : st.ents.get? key with
    | some e => rfl
    | none =>
      dsimp only
      cases hc2 : st.names.get? key with
      | some l =>
        dsimp only
        obtain ⟨e, z, h6, h7, h8⟩ := hi.names key l hc2
        rw [hsame l (by rw [h6]; simp)]
        intro h9
        rw [h9, hs] at h6
        simp only [Option.some.injEq] at h6
        subst h6
        rw [hx] at h7
        simp only [Option.some.injEq] at h7
        subst h7
        rw [he] at h8
        simp at h8
      | none =>
        dsimp only
        cases env.tu key with
        | none => rfl
        | some u =>
          dsimp only
          have hempty : (st'.uuids.get? u).getD [] = [] ↔ (st.uuids.get? u).getD [] = [] := by
            rw [List.eq_nil_iff_forall_not_mem, List.eq_nil_iff_forall_not_mem]
            constructor
            · intro h l hl
              by_cases h6 : l = x.link
              · subst h6
                obtain ⟨e, z, h7, h8, h9⟩ := (hi.uuids u _).1 hl
                rw [hs] at h7
                simp only [Option.some.injEq] at h7
                subst h7
                rw [hx] at h8
                simp only [Option.some.injEq] at h8
                subst h8
                exact h y.link ((huuids u _).2 (Or.inr ⟨h9.symm, rfl⟩))
              · exact h l ((huuids u l).2 (Or.inl ⟨hl, h6⟩))
            · intro h l hl
              rcases (huuids u l).1 hl with ⟨h6, -⟩ | ⟨h6, -⟩
              · exact h l h6
              · subst h6
                exact h _ hou
          have hexist : (∃ l ∈ (st'.uuids.get? u).getD [], r = st'.ents.get? l) ↔
              ∃ l ∈ (st.uuids.get? u).getD [], r = st.ents.get? l := by
            constructor
            · rintro ⟨l, hl, hr⟩
              rcases (huuids u l).1 hl with ⟨h6, h7⟩ | ⟨h6, h7⟩
              · refine ⟨l, h6, ?_⟩
                obtain ⟨e, z, h8, -, -⟩ := (hi.uuids u l).1 h6
                rw [hr, hsame l (by rw [h8]; simp) h7]
              · subst h6
                refine ⟨x.link, hou, ?_⟩
                rw [hr, hents, if_pos h7, hs]
            · rintro ⟨l, hl, hr⟩
              by_cases h6 : l = x.link
              · refine ⟨y.link, ?_, ?_⟩
                · rw [huuids]
                  right
                  refine ⟨?_, rfl⟩
                  obtain ⟨e, z, h8, h9, h10⟩ := (hi.uuids u l).1 hl
                  rw [h6, hs] at h8
                  simp only [Option.some.injEq] at h8
                  subst h8
                  rw [hx] at h9
                  simp only [Option.some.injEq] at h9
                  subst h9
                  exact h10.symm
                · rw [hents, if_pos rfl, hr, h6, hs]
              · obtain ⟨e, z, h8, -, -⟩ := (hi.uuids u l).1 hl
                exact ⟨l, (huuids u l).2 (Or.inl ⟨hl, h6⟩), by rw [hsame l (by rw [h8]; simp) h6]; exact hr⟩
          rw [hempty, hexist]
  refine ⟨st', hres, hinv, ⟨y, by rw [hobj, if_pos rfl], by simp [Ent.ref, hye], hylink, hyu⟩, ?_, ?_, ?_, hother, ?_, ?_⟩
  · intro r
    rw [answers_iff]
    by_cases h1 : st'.ents.get? name = none
    · rw [h1]
      dsimp only
      have h2 : st'.names.get? name = some y.link := by
        subst hst'
        exact Dict.get?_set_self _ _ _
      rw [h2]
      dsimp only
      rw [hents, if_pos rfl]
    · rw [hents] at h1 ⊢
      by_cases h2 : name = y.link
      · rw [if_pos h2]
      · rw [if_neg h2] at h1
        rw [hnames.2] at h1
        simp at h1
  · intro r
    rw [answers_iff, hents, if_pos hylink.symm]
  · intro h1 r
    have hsl : ∀ z : Str, '/' ∈ x.linkAs z := by intro z; simp [Ent.linkAs]
    have hsl' : '/' ∈ x.link := by simp [Ent.link]
    exact hother _ (Ne.symm hne) (fun h => h1 (h ▸ hsl name)) (fun h => h1 (by rw [h]; exact hsl')) r
  · intro t
    unfold entitiesOf
    by_cases ht : t = "fragment".toList
    · subst ht
      have h1 : (st'.byType.get? "fragment".toList).getD [] =
          PySet.add (((st.byType.get? "fragment".toList).getD []).erase x.link) y.link := by
        subst hst'
        dsimp only [addTo]
        rw [Dict.get?_set_self, Option.getD_some, hbt3]
      have h2 : y.link ∉ ((st.byType.get? "fragment".toList).getD []).erase x.link := by
        intro h
        obtain ⟨e, z, h3, -, -⟩ := (hi.types _ _).1 (List.mem_of_mem_erase h)
        rw [hylink, hfree] at h3
        simp at h3
      rw [h1]
      unfold PySet.add
      rw [if_neg h2, List.map_append, List.map_singleton, hents, if_pos rfl]
      have h3 : (((st.byType.get? "fragment".toList).getD []).erase x.link).map (fun l => st'.ents.get? l) =
          (((st.byType.get? "fragment".toList).getD []).erase x.link).map (fun l => st.ents.get? l) := by
        apply List.map_congr_left
        intro l hl
        have h4 := ((hi.nodupT _).mem_erase_iff).1 hl
        obtain ⟨e, z, h5, -, -⟩ := (hi.types _ _).1 h4.2
        exact hsame l (by rw [h5]; simp) h4.1
      rw [h3]
      have h5 := (List.perm_cons_erase hot).map (fun l => st.ents.get? l)
      rw [List.map_cons, hs] at h5
      exact List.perm_append_singleton _ _ |>.trans h5.symm
    · have h1 : (st'.byType.get? t).getD [] = (st.byType.get? t).getD [] := by
        subst hst'
        dsimp only [addTo]
        rw [Dict.get?_set_ne _ _ (Ne.symm ht)]
        have hbt' := hbt
        unfold removeFrom at hbt'
        rw [if_pos hot] at hbt'
        simp only [Except.ok.injEq] at hbt'
        rw [← hbt', Dict.get?_set_ne _ _ (Ne.symm ht)]
      rw [h1]
      apply List.Perm.of_eq
      apply List.map_congr_left
      intro l hl
      obtain ⟨e, z, h2, h3, h4⟩ := (hi.types _ _).1 hl
      apply hsame l (by rw [h2]; simp)
      intro h5
      rw [h5, hs] at h2
      simp only [Option.some.injEq] at h2
      subst h2
      rw [hx] at h3
      simp only [Option.some.injEq] at h3
      subst h3
      exact ht (by rw [← h4, hf])
  · intro e hef
    rw [hobj, if_neg hef]

end Fg
