import Verif.Props.Resolver
import Mathlib.Data.List.Forall2
import Mathlib.Data.List.Perm.Basic

/-!
The registry of resources over histories of operations (C41).
-/

set_option linter.unusedSectionVars false

namespace Rsv

variable {A : Type} [DecidableEq A]

/-! ### the specification -/

/-- The abstract registry: for each reference, the resources that are registered, and whether they are stored. -/
abbrev Reg (A : Type) := Str → List (Res A × Bool)

/-- operations of a user: add a resource (stored or not), delete one, save all files, make a new resolver on the directory -/
inductive Op (A : Type)
  | add (r : Res A) (store : Bool)
  | del (r : Res A)
  | save
  | restart

/-- the stored resources of a list -/
def stored (l : List (Res A × Bool)) : List (Res A) := (l.filter fun e => e.2).map Prod.fst

/-- equal up to the identity of the object and the order of the interfaces -/
def Alike (r r' : Res A) : Prop :=
  r.ref = r'.ref ∧ r.source = r'.source ∧ r.dtype = r'.dtype ∧ (∀ i, i ∈ r.ifaces ↔ i ∈ r'.ifaces) ∧ r.prio = r'.prio ∧
    r.isStatic = r'.isStatic ∧ r.internal = r'.internal ∧ r.download = r'.download ∧ r.filetype = r'.filetype ∧ r.rest = r'.rest

/-- What the operations should do. Adding registers the resource unless one with this source is registered for the reference;
deleting removes exactly this resource; saving changes nothing; a new resolver has what was stored, sorted by priority. -/
def Next (R : Reg A) : Op A → Reg A → Prop
  | .add r store, R' => R' = if ∃ e ∈ R r.ref, e.1.source = r.source then R else
      fun x => if x = r.ref then R x ++ [(r, store)] else R x
  | .del r, R' => R' = fun x => if x = r.ref then (R x).filter fun e => decide (e.1 ≠ r) else R x
  | .save, R' => R' = R
  | .restart, R' => ∀ ref, (R' ref).Pairwise (fun a b => a.1.prio ≤ b.1.prio) ∧
      ∃ l, l.Perm (stored (R ref)) ∧ List.Forall₂ (fun e r => e.2 = true ∧ Alike e.1 r) (R' ref) l

/-- a history of operations -/
inductive Hist : Reg A → List (Op A) → Reg A → Prop
  | nil (R : Reg A) : Hist R [] R
  | cons {R R' R'' : Reg A} {op : Op A} {ops : List (Op A)} : Next R op R' → Hist R' ops R'' → Hist R (op :: ops) R''

/-- a resource as the constructor makes it (see `mkRes_wf`), with a source, and without the argument `filetype` -/
structure Wf (r : Res A) : Prop where
  source : ∃ s, r.source = some s
  filetype : r.filetype = none
  basic : "basic" ∈ r.ifaces
  types : ∀ i ∈ r.ifaces, i ∈ ifaceTypes

/-- the record describes the resource -/
def Written (k : Rec A) (r : Res A) : Prop :=
  k.source = r.source ∧ k.dtype = r.dtype ∧ (∀ i, i ∈ k.ifaces ↔ i ∈ r.ifaces) ∧ k.prio = r.prio ∧ k.static = r.isStatic ∧
    k.internal = r.internal ∧ k.download = r.download ∧ k.filetype = r.filetype ∧ k.rest = r.rest

/-- the file (if there is one) has one record for each of the resources, and no others; if there are none there is no file -/
def File (f : Option (Option (List (Rec A)))) (l : List (Res A)) : Prop :=
  (l = [] ∧ f = none) ∨ (l ≠ [] ∧ ∃ recs l', f = some (some recs) ∧ l'.Perm l ∧ List.Forall₂ Written recs l')

/-- the state of the resolver is that of the abstract registry -/
structure Refines (st : St A) (R : Reg A) : Prop where
  memN : st.mem.keys.Nodup
  dirN : st.dir.keys.Nodup
  mem : ∀ ref, st.mem.get? ref = if R ref = [] then none else some ((R ref).map Prod.fst)
  dir : ∀ ref, File (st.dir.get? ref) (stored (R ref))
  wf : ∀ ref, ∀ e ∈ R ref, e.1.ref = ref ∧ Wf e.1
  uniq : ∀ ref, ((R ref).map fun e => e.1.source).Nodup

/-- the operations of the code -/
def step (st : St A) : Op A → Out (St A) Err Unit
  | .add r store => addResource st r store
  | .del r => deleteResource st r
  | .save =>
    match writeAll st.mem st.dir with
    | .ok _ dir => .ok () { st with dir := dir }
    | .err e dir => .err e { st with dir := dir }
  | .restart =>
    match start st.dir with
    | .ok st' => .ok () st'
    | .error e => .err e st

/-- all of them, if none raises -/
def run (st : St A) : List (Op A) → Option (St A)
  | [] => some st
  | op :: ops =>
    match step st op with
    | .ok _ st => run st ops
    | .err _ _ => none

/-! ### interfaces -/

theorem mem_addInterface (l : List String) (i j : String) : j ∈ addInterface l i ↔ j ∈ l ∨ j = i ∧ i ∈ ifaceTypes := by
  unfold addInterface
  split
  · rename_i h
    simp [h]
  · rename_i h
    simp [h]

theorem mem_normalize (l : List String) (j : String) : j ∈ normalize (some l) ↔ j = "basic" ∨ j ∈ l ∧ j ∈ ifaceTypes := by
  have main : ∀ (l m : List String), j ∈ l.foldl addInterface m ↔ j ∈ m ∨ j ∈ l ∧ j ∈ ifaceTypes := by
    intro l
    induction l with
    | nil => intro m; simp
    | cons a l ih =>
      intro m
      rw [List.foldl_cons, ih, mem_addInterface, List.mem_cons]
      constructor
      · rintro ((h | ⟨rfl, h⟩) | h)
        · exact .inl h
        · exact .inr ⟨.inl rfl, h⟩
        · exact .inr ⟨.inr h.1, h.2⟩
      · rintro (h | ⟨rfl | h, h2⟩)
        · exact .inl (.inl h)
        · exact .inl (.inr ⟨rfl, h2⟩)
        · exact .inr ⟨h, h2⟩
  unfold normalize
  dsimp only
  rw [main]
  simp [addInterface, ifaceTypes, PySet.add]

/-- what the constructor makes from a source is well formed -/
theorem mkRes_wf (oid : ℕ) (ref s dtype : Str) (ifaces : List String) (prio : ℤ) (static internal : Bool) (download : Option Str)
    (rest : A) : ∃ r, mkRes oid ref (some s) dtype (some ifaces) prio static internal download none rest = .ok r ∧ Wf r := by
  refine ⟨_, by unfold mkRes; rw [if_neg (by simp)], ⟨⟨s, rfl⟩, rfl, ?_, ?_⟩⟩
  · exact (mem_normalize _ _).2 (.inl rfl)
  · intro i hi
    rcases (mem_normalize _ _).1 hi with rfl | h
    · decide
    · exact h.2

/-! ### matching by source -/

theorem written_serialize (r : Res A) : Written r.serialize r := ⟨rfl, rfl, fun _ => Iff.rfl, rfl, rfl, rfl, rfl, rfl, rfl⟩

theorem written_map (l : List (Res A)) : List.Forall₂ Written (l.map Res.serialize) l := by
  rw [List.forall₂_map_left_iff]
  exact List.forall₂_same.2 fun r _ => written_serialize r

theorem File.nil {f : Option (Option (List (Rec A)))} (h : File f []) : f = none := by
  rcases h with h | h
  · exact h.2
  · exact absurd rfl h.1

theorem File.mk (l : List (Res A)) (hne : l ≠ []) : File (some (some (l.map Res.serialize))) l :=
  .inr ⟨hne, _, l, rfl, .refl _, written_map l⟩

theorem matches_source (r k : Res A) (rec : Rec A) (hrec : Written rec k) (hr : Wf r) (hk : Wf k) :
    r.matches rec = .ok (decide (k.source = r.source)) := by
  obtain ⟨a, ha⟩ := hr.source
  obtain ⟨b, hb⟩ := hk.source
  unfold Res.matches
  simp [hrec.1, ha, hb]

theorem existsIn_eq (dir : Dir A) (r : Res A) (hr : Wf r) (l : List (Res A)) (hl : ∀ k ∈ l, Wf k)
    (hd : File (dir.get? r.ref) l) :
    existsIn dir r = .ok (decide (∃ k ∈ l, k.source = r.source)) := by
  unfold existsIn
  rcases hd with ⟨rfl, hd⟩ | ⟨hn, recs, l', hd, hp, hF⟩
  · rw [hd]; simp
  · rw [hd]
    dsimp only
    have hl' : ∀ k ∈ l', Wf k := fun k hk => hl k (hp.mem_iff.1 hk)
    have : recs.mapM (fun k => r.matches k) = .ok (l'.map fun k => decide (k.source = r.source)) := by
      clear hn hd hp
      induction hF with
      | nil => rfl
      | @cons k a recs l' h _ ih =>
        rw [List.mapM_cons, matches_source r a k h hr (hl' a (by simp)), ih fun k hk => hl' k (by simp [hk])]
        rfl
    rw [this]
    show Except.ok _ = _
    congr 1
    rw [Bool.eq_iff_iff]
    simp [hp.mem_iff]

theorem anyMatch_eq (r : Res A) (hr : Wf r) (l : List (Res A)) (hl : ∀ k ∈ l, Wf k) :
    anyMatch r.serialize l = .ok (decide (∃ k ∈ l, k.source = r.source)) := by
  induction l with
  | nil => simp [anyMatch]
  | cons a l ih =>
    unfold anyMatch
    rw [matches_source a r _ (written_serialize r) (hl a (by simp)) hr]
    by_cases h : r.source = a.source
    · simp [h]
    · simp only [h, decide_false]
      rw [ih fun k hk => hl k (by simp [hk])]
      simp [Ne.symm h]

theorem unmatched_eq (r : Res A) (hr : Wf r) (recs : List (Rec A)) (l : List (Res A)) (hF : List.Forall₂ Written recs l)
    (hl : ∀ k ∈ l, Wf k) (hno : ∀ k ∈ l, k.source ≠ r.source) : unmatched r recs = .ok recs := by
  induction hF with
  | nil => rfl
  | @cons k a recs l h _ ih =>
    unfold unmatched
    rw [matches_source r a k h hr (hl a (by simp)), ih (fun k hk => hl k (by simp [hk])) fun k hk => hno k (by simp [hk])]
    simp [hno a (by simp), Except.map]

/-- the stored resources that are in the list -/
theorem existing_eq (dir : Dir A) (ref : Str) (l : List (Res A)) (hl : ∀ k ∈ l, Wf k)
    (hd : File (dir.get? ref) l) (rs : List (Res A))
    (hrs : ∀ k ∈ rs, Wf k ∧ k.ref = ref) :
    existing dir rs = .ok (rs.filter fun r => decide (∃ k ∈ l, k.source = r.source)) := by
  induction rs with
  | nil => rfl
  | cons a rs ih =>
    unfold existing
    have ha := hrs a (by simp)
    rw [existsIn_eq dir a ha.1 l hl (by rw [ha.2]; exact hd), ih fun k hk => hrs k (by simp [hk])]
    rw [List.filter_cons]
    rfl

/-! ### the registry -/

theorem mem_stored (l : List (Res A × Bool)) (r : Res A) : r ∈ stored l ↔ (r, true) ∈ l := by
  unfold stored
  simp

theorem Refines.wfStored {st : St A} {R : Reg A} (h : Refines st R) (ref : Str) : ∀ k ∈ stored (R ref), Wf k :=
  fun k hk => (h.wf ref _ ((mem_stored _ _).1 hk)).2

theorem Refines.listOf {st : St A} {R : Reg A} (h : Refines st R) (ref : Str) : listOf st.mem ref = (R ref).map Prod.fst := by
  unfold Rsv.listOf
  rw [h.mem]
  split
  · rename_i e; rw [e]; rfl
  · rfl

theorem Refines.listed {st : St A} {R : Reg A} (h : Refines st R) (ref : Str) (r : Res A) :
    Listed st ref r ↔ ∃ b, (r, b) ∈ R ref := by
  unfold Listed
  constructor
  · rintro ⟨rs, h1, h2⟩
    have := Dict.get?_eq_some_of_mem _ h.memN h1
    rw [h.mem] at this
    split at this
    · exact absurd this (by simp)
    · cases this
      obtain ⟨⟨a, b⟩, h3, rfl⟩ := List.mem_map.1 h2
      exact ⟨b, h3⟩
  · rintro ⟨b, hb⟩
    refine ⟨(R ref).map Prod.fst, Dict.mem_of_get?_eq_some _ ?_, List.mem_map.2 ⟨_, hb, rfl⟩⟩
    rw [h.mem, if_neg]
    rintro e
    rw [e] at hb
    exact absurd hb (by simp)

theorem Refines.inj {st : St A} {R : Reg A} (h : Refines st R) (ref : Str) (e e' : Res A × Bool) (he : e ∈ R ref) (he' : e' ∈ R ref)
    (hs : e.1.source = e'.1.source) : e = e' := List.inj_on_of_nodup_map (h.uniq ref) he he' hs

/-- an empty registry -/
theorem refines_empty : Refines (⟨[], []⟩ : St A) (fun _ => []) where
  memN := by simp [Dict.keys]
  dirN := by simp [Dict.keys]
  mem := by simp
  dir := fun _ => .inl ⟨rfl, rfl⟩
  wf := by simp
  uniq := by simp

/-! ### adding -/

theorem touch_eq {st : St A} {R : Reg A} (h : Refines st R) (ref : Str) (hne : R ref ≠ []) : touch st.mem ref = st.mem := by
  unfold touch
  rw [h.mem, if_neg hne]

theorem stored_append (l : List (Res A × Bool)) (r : Res A) (b : Bool) :
    stored (l ++ [(r, b)]) = stored l ++ (if b then [r] else []) := by
  unfold stored
  cases b <;> simp

/-- adding what is there changes nothing -/
theorem add_present {st : St A} {R : Reg A} (h : Refines st R) (r : Res A) (store : Bool) (hr : Wf r)
    (hp : ∃ e ∈ R r.ref, e.1.source = r.source) : addResource st r store = .ok () st := by
  unfold addResource
  rw [existsIn_eq st.dir r hr _ (h.wfStored r.ref) (h.dir r.ref)]
  by_cases hs : ∃ k ∈ stored (R r.ref), k.source = r.source
  · simp [hs]
  · simp only [hs, decide_false]
    unfold hasResource
    have hl : listOf st.mem r.ref = (R r.ref).map Prod.fst := h.listOf r.ref
    have hw : ∀ k ∈ (R r.ref).map Prod.fst, Wf k := by
      intro k hk
      obtain ⟨e, he, rfl⟩ := List.mem_map.1 hk
      exact (h.wf _ e he).2
    rw [hl, anyMatch_eq r hr _ hw]
    have hex : ∃ k ∈ (R r.ref).map Prod.fst, k.source = r.source := by
      obtain ⟨e, he, hs⟩ := hp
      exact ⟨e.1, List.mem_map.2 ⟨e, he, rfl⟩, hs⟩
    have hne : R r.ref ≠ [] := by
      obtain ⟨e, he, _⟩ := hp
      exact List.ne_nil_of_mem he
    simp only [hex, decide_true, touch_eq h r.ref hne]
    rfl

/-- the registry with another resource -/
def plus (R : Reg A) (r : Res A) (store : Bool) : Reg A := fun x => if x = r.ref then R x ++ [(r, store)] else R x

theorem add_new {st : St A} {R : Reg A} (h : Refines st R) (r : Res A) (store : Bool) (hr : Wf r)
    (hp : ¬ ∃ e ∈ R r.ref, e.1.source = r.source) :
    ∃ st', addResource st r store = .ok () st' ∧ Refines st' (plus R r store) := by
  have hs : ¬ ∃ k ∈ stored (R r.ref), k.source = r.source := by
    rintro ⟨k, hk, e⟩
    exact hp ⟨_, (mem_stored _ _).1 hk, e⟩
  have hl : listOf st.mem r.ref = (R r.ref).map Prod.fst := h.listOf r.ref
  have hw : ∀ k ∈ (R r.ref).map Prod.fst, Wf k := by
    intro k hk
    obtain ⟨e, he, rfl⟩ := List.mem_map.1 hk
    exact (h.wf _ e he).2
  have hm : ¬ ∃ k ∈ (R r.ref).map Prod.fst, k.source = r.source := by
    rintro ⟨k, hk, e⟩
    obtain ⟨e', he', rfl⟩ := List.mem_map.1 hk
    exact hp ⟨e', he', e⟩
  have hadd : addResource st r store = register { st with mem := touch st.mem r.ref } r store := by
    unfold addResource
    rw [existsIn_eq st.dir r hr _ (h.wfStored r.ref) (h.dir r.ref)]
    simp only [hs, decide_false]
    unfold hasResource
    rw [hl, anyMatch_eq r hr _ hw]
    simp only [hm, decide_false]
    rfl
  -- the memory
  have hlt : listOf (touch st.mem r.ref) r.ref = (R r.ref).map Prod.fst := by
    rw [← hl]
    unfold Rsv.listOf touch
    cases hg : st.mem.get? r.ref with
    | some v => simp [hg]
    | none => simp
  have htg : ∀ ref, ref ≠ r.ref → (touch st.mem r.ref).get? ref = st.mem.get? ref := by
    intro ref hne
    unfold touch
    split
    · rfl
    · exact Dict.get?_set_ne _ _ (Ne.symm hne)
  have htn : (touch st.mem r.ref).keys.Nodup := by
    unfold touch
    split
    · exact h.memN
    · exact Dict.nodup_keys_set _ _ _ h.memN
  have hmem : ∀ ref, (append (touch st.mem r.ref) r).get? ref =
      if plus R r store ref = [] then none else some ((plus R r store ref).map Prod.fst) := by
    intro ref
    unfold append
    rw [hlt, Dict.get?_set]
    by_cases hr' : r.ref = ref
    · subst hr'; simp [plus]
    · rw [if_neg hr', htg ref (Ne.symm hr'), h.mem]
      simp [plus, Ne.symm hr']
  have hwf : ∀ ref, ∀ e ∈ plus R r store ref, e.1.ref = ref ∧ Wf e.1 := by
    intro ref e he
    unfold plus at he
    split at he
    · rename_i heq
      rcases List.mem_append.1 he with he | he
      · exact h.wf ref e he
      · simp only [List.mem_cons, List.not_mem_nil, or_false] at he
        subst he
        exact ⟨heq.symm, hr⟩
    · exact h.wf ref e he
  have huniq : ∀ ref, ((plus R r store ref).map fun e => e.1.source).Nodup := by
    intro ref
    unfold plus
    split
    · rename_i heq
      subst heq
      rw [List.map_append, List.nodup_append]
      refine ⟨h.uniq _, by simp, ?_⟩
      intro a ha b hb hab
      simp only [List.map_cons, List.map_nil, List.mem_cons, List.not_mem_nil, or_false] at hb
      obtain ⟨e, he, rfl⟩ := List.mem_map.1 ha
      exact hp ⟨e, he, hab.trans hb⟩
    · exact h.uniq ref
  cases store with
  | false =>
    refine ⟨⟨append (touch st.mem r.ref) r, st.dir⟩, by rw [hadd]; rfl, ?_⟩
    refine ⟨Dict.nodup_keys_set _ _ _ htn, h.dirN, hmem, ?_, hwf, huniq⟩
    intro ref
    have hst : stored (plus R r false ref) = stored (R ref) := by
      unfold plus
      split
      · rw [stored_append]; simp
      · rfl
    rw [hst]
    exact h.dir ref
  | true =>
    obtain ⟨recs, hwrite, hF⟩ : ∃ recs, writeToFile st.dir r = .ok (st.dir.set r.ref (some recs)) ∧
        ∃ l', l'.Perm (stored (R r.ref) ++ [r]) ∧ List.Forall₂ Written recs l' := by
      unfold writeToFile
      rcases h.dir r.ref with ⟨he, hd⟩ | ⟨hn, recs, l', hd, hperm, hF⟩
      · rw [hd, he]
        exact ⟨_, rfl, [r], .refl _, .cons (written_serialize r) .nil⟩
      · rw [hd]
        dsimp only
        rw [Option.getD_some, unmatched_eq r hr recs l' hF (fun k hk => h.wfStored r.ref k (hperm.mem_iff.1 hk))
          (fun k hk e => hs ⟨k, hperm.mem_iff.1 hk, e⟩)]
        exact ⟨_, rfl, l' ++ [r], hperm.append_right _, List.rel_append hF (.cons (written_serialize r) .nil)⟩
    refine ⟨⟨append (touch st.mem r.ref) r, st.dir.set r.ref (some recs)⟩,
      by rw [hadd]; unfold register; simp [hwrite], ?_⟩
    refine ⟨Dict.nodup_keys_set _ _ _ htn, Dict.nodup_keys_set _ _ _ h.dirN, hmem, ?_, hwf, huniq⟩
    intro ref
    dsimp only
    rw [Dict.get?_set]
    by_cases hr' : r.ref = ref
    · subst hr'
      have hst : stored (plus R r true r.ref) = stored (R r.ref) ++ [r] := by
        unfold plus; rw [if_pos rfl, stored_append]; rfl
      rw [if_pos rfl, hst]
      obtain ⟨l', h1, h2⟩ := hF
      exact .inr ⟨by simp, recs, l', rfl, h1, h2⟩
    · rw [if_neg hr']
      have : plus R r true ref = R ref := by unfold plus; rw [if_neg (Ne.symm hr')]
      rw [this]
      exact h.dir ref

/-! ### deleting -/

/-- the registry without a resource -/
def minus (R : Reg A) (r : Res A) : Reg A := fun x => if x = r.ref then (R x).filter fun e => decide (e.1 ≠ r) else R x

theorem stored_filter (l : List (Res A × Bool)) (r : Res A) :
    stored (l.filter fun e => decide (e.1 ≠ r)) = (stored l).filter fun k => decide (k ≠ r) := by
  unfold stored
  rw [List.filter_map, List.filter_filter, List.filter_filter]
  congr 1
  apply List.filter_congr
  intro x _
  simp [Bool.and_comm]

theorem map_fst_filter (l : List (Res A × Bool)) (r : Res A) :
    (l.filter fun e => decide (e.1 ≠ r)).map Prod.fst = (l.map Prod.fst).filter fun k => decide (k ≠ r) := by
  rw [List.filter_map]
  rfl

theorem Refines.nodup {st : St A} {R : Reg A} (h : Refines st R) (ref : Str) : ((R ref).map Prod.fst).Nodup := by
  have := h.uniq ref
  rw [show (fun e : Res A × Bool => e.1.source) = Res.source ∘ Prod.fst from rfl, ← List.map_map] at this
  exact List.Nodup.of_map _ this

/-- the files for a reference are rewritten with a part of its resources -/
theorem writeOrDelete_eq {st : St A} {R : Reg A} (h : Refines st R) (ref : Str) (dir : Dir A) (hd : File (dir.get? ref) (stored (R ref)))
    (p : Res A → Bool) :
    writeOrDelete dir ref (((R ref).map Prod.fst).filter p) =
      if (stored (R ref)).filter p = [] then (if dir.has ref then .ok (dir.del ref) else .error .fileNotFound)
      else .ok (dir.set ref (some (((stored (R ref)).filter p).map Res.serialize))) := by
  have hex : existing dir (((R ref).map Prod.fst).filter p) = .ok ((stored (R ref)).filter p) := by
    rw [existing_eq dir ref (stored (R ref)) (h.wfStored ref) hd]
    · congr 1
      unfold stored
      rw [List.filter_map, List.filter_map, List.filter_map, List.filter_filter, List.filter_filter]
      congr 1
      apply List.filter_congr
      intro e he
      rw [Bool.eq_iff_iff]
      simp only [Function.comp_apply, Bool.and_eq_true, decide_eq_true_eq]
      constructor
      · rintro ⟨⟨k, hk, hs⟩, hp⟩
        have hk' : (k, true) ∈ R ref := by
          obtain ⟨e', he', rfl⟩ := List.mem_map.1 hk
          have := List.mem_filter.1 he'
          rw [← this.2]; exact this.1
        have := h.inj ref _ _ hk' he hs
        exact ⟨hp, by rw [← this]⟩
      · rintro ⟨hp, he2⟩
        exact ⟨⟨e.1, List.mem_map.2 ⟨e, List.mem_filter.2 ⟨he, he2⟩, rfl⟩, rfl⟩, hp⟩
    · intro k hk
      obtain ⟨e, he, rfl⟩ := List.mem_map.1 (List.mem_filter.1 hk).1
      exact ⟨(h.wf ref e he).2, (h.wf ref e he).1⟩
  unfold writeOrDelete
  rw [hex]
  by_cases he : (stored (R ref)).filter p = []
  · rw [if_pos he, he]
  · rw [if_neg he]
    obtain ⟨a, l, hal⟩ := List.exists_cons_of_ne_nil he
    rw [hal]

theorem File.has {dir : Dir A} {ref : Str} {l : List (Res A)} (h : File (dir.get? ref) l) : dir.has ref = true ↔ l ≠ [] := by
  unfold Dict.has
  rcases h with ⟨rfl, h⟩ | ⟨hn, recs, l', h, _⟩
  · simp [h]
  · simp [h, hn]

theorem Refines.has {st : St A} {R : Reg A} (h : Refines st R) (ref : Str) : st.dir.has ref = true ↔ stored (R ref) ≠ [] :=
  (h.dir ref).has

/-- C41: what `delete_resource` does, and when it raises: if the resource is not registered, or nothing is stored for the
reference. Even then, the resource is not listed any more. -/
theorem delete_spec {st : St A} {R : Reg A} (h : Refines st R) (r : Res A) :
    (¬ (∃ b, (r, b) ∈ R r.ref) ∧ (deleteResource st r).error? = some .keyError) ∨
    ((∃ b, (r, b) ∈ R r.ref) ∧ stored (R r.ref) = [] ∧ (deleteResource st r).error? = some .fileNotFound ∧
      (deleteResource st r).state.mem = st.mem.set r.ref ((minus R r r.ref).map Prod.fst)) ∨
    ((∃ b, (r, b) ∈ R r.ref) ∧ stored (R r.ref) ≠ [] ∧ ∃ st', deleteResource st r = .ok () st' ∧ Refines st' (minus R r)) := by
  have hl : listOf st.mem r.ref = (R r.ref).map Prod.fst := h.listOf r.ref
  by_cases hm : ∃ b, (r, b) ∈ R r.ref
  · have hmem : r ∈ (R r.ref).map Prod.fst := by
      obtain ⟨b, hb⟩ := hm
      exact List.mem_map.2 ⟨_, hb, rfl⟩
    have herase : ((R r.ref).map Prod.fst).erase r = ((R r.ref).map Prod.fst).filter fun k => decide (k ≠ r) := by
      rw [List.Nodup.erase_eq_filter (h.nodup r.ref)]
      apply List.filter_congr
      intro x _
      rw [Bool.eq_iff_iff, bne_iff_ne, decide_eq_true_eq]
    have hmin : (minus R r r.ref).map Prod.fst = ((R r.ref).map Prod.fst).filter fun k => decide (k ≠ r) := by
      unfold minus
      rw [if_pos rfl, map_fst_filter]
    have hw := writeOrDelete_eq h r.ref st.dir (h.dir r.ref) fun k => decide (k ≠ r)
    by_cases hs : stored (R r.ref) = []
    · refine .inr (.inl ⟨hm, hs, ?_⟩)
      have hno : st.dir.has r.ref = false := by
        rw [Bool.eq_false_iff]
        intro hh
        exact (h.has r.ref).1 hh hs
      rw [hs] at hw
      simp only [List.filter_nil, if_true, hno, Bool.false_eq_true, if_false] at hw
      unfold deleteResource
      dsimp only
      rw [hl, if_pos hmem, herase, hw]
      exact ⟨rfl, by rw [hmin]; rfl⟩
    · refine .inr (.inr ⟨hm, hs, ?_⟩)
      have hyes := (h.has r.ref).2 hs
      obtain ⟨dir', hdir', hdn, hdg⟩ : ∃ dir', writeOrDelete st.dir r.ref (((R r.ref).map Prod.fst).filter fun k => decide (k ≠ r)) = .ok dir' ∧
          dir'.keys.Nodup ∧ ∀ ref, dir'.get? ref = if r.ref = ref then
            (if stored (minus R r r.ref) = [] then none else some (some ((stored (minus R r r.ref)).map Res.serialize)))
            else st.dir.get? ref := by
        have hsm : stored (minus R r r.ref) = (stored (R r.ref)).filter fun k => decide (k ≠ r) := by
          unfold minus
          rw [if_pos rfl, stored_filter]
        rw [hw, hsm]
        by_cases he : (stored (R r.ref)).filter (fun k => decide (k ≠ r)) = []
        · rw [if_pos he, if_pos hyes]
          refine ⟨_, rfl, Dict.nodup_keys_del _ _ h.dirN, fun ref => ?_⟩
          rw [Dict.get?_del _ h.dirN, if_pos he]
        · rw [if_neg he]
          refine ⟨_, rfl, Dict.nodup_keys_set _ _ _ h.dirN, fun ref => ?_⟩
          rw [Dict.get?_set, if_neg he]
      refine ⟨⟨if ((R r.ref).map Prod.fst).filter (fun k => decide (k ≠ r)) = [] then st.mem.del r.ref else
          st.mem.set r.ref (((R r.ref).map Prod.fst).filter fun k => decide (k ≠ r)), dir'⟩, ?_, ?_⟩
      · unfold deleteResource
        dsimp only
        rw [hl, if_pos hmem, herase, hdir']
      · refine ⟨?_, hdn, ?_, ?_, ?_, ?_⟩
        · dsimp only
          split
          · exact Dict.nodup_keys_del _ _ h.memN
          · exact Dict.nodup_keys_set _ _ _ h.memN
        · intro ref
          dsimp only
          rw [← hmin]
          by_cases hr : r.ref = ref
          · subst hr
            by_cases he : minus R r r.ref = []
            · rw [if_pos (by rw [he]; rfl), if_pos he, Dict.get?_del _ h.memN, if_pos rfl]
            · rw [if_neg (by simpa using he), if_neg he, Dict.get?_set_self]
          · have hR : minus R r ref = R ref := by unfold minus; rw [if_neg (Ne.symm hr)]
            rw [hR]
            split
            · rw [Dict.get?_del _ h.memN, if_neg hr, h.mem]
            · rw [Dict.get?_set, if_neg hr, h.mem]
        · intro ref
          dsimp only
          rw [hdg]
          by_cases hr : r.ref = ref
          · subst hr
            rw [if_pos rfl]
            by_cases he : stored (minus R r r.ref) = []
            · rw [if_pos he]; exact .inl ⟨he, rfl⟩
            · rw [if_neg he]; exact .mk _ he
          · have hR : minus R r ref = R ref := by unfold minus; rw [if_neg (Ne.symm hr)]
            rw [if_neg hr, hR]
            exact h.dir ref
        · intro ref e he
          refine h.wf ref e ?_
          unfold minus at he
          split at he
          · exact (List.mem_filter.1 he).1
          · exact he
        · intro ref
          unfold minus
          split
          · exact List.Nodup.sublist (List.filter_sublist.map _) (h.uniq ref)
          · exact h.uniq ref
  · refine .inl ⟨hm, ?_⟩
    unfold deleteResource
    dsimp only
    rw [hl, if_neg]
    · rfl
    · intro hh
      obtain ⟨⟨a, b⟩, he, rfl⟩ := List.mem_map.1 hh
      exact hm ⟨b, he⟩

/-! ### saving -/

theorem save_step {st : St A} {R : Reg A} (h : Refines st R) (dir : Dir A) (hd : ∀ ref, File (dir.get? ref) (stored (R ref)))
    (ref : Str) (rs : List (Res A)) (hm : st.mem.get? ref = some rs) :
    (stored (R ref) = [] ∧ R ref ≠ [] ∧ writeOrDelete dir ref rs = .error .fileNotFound) ∨
    (stored (R ref) ≠ [] ∧ writeOrDelete dir ref rs = .ok (dir.set ref (some ((stored (R ref)).map Res.serialize))) ∧
      ∀ x, File ((dir.set ref (some ((stored (R ref)).map Res.serialize))).get? x) (stored (R x))) := by
  rw [h.mem] at hm
  split at hm
  · exact absurd hm (by simp)
  · rename_i hne
    cases hm
    have hw := writeOrDelete_eq h ref dir (hd ref) fun _ => true
    rw [List.filter_true, List.filter_true] at hw
    rw [hw]
    by_cases hs : stored (R ref) = []
    · have hno : dir.has ref = false := by
        rw [Bool.eq_false_iff]
        intro hh
        exact (hd ref).has.1 hh hs
      exact .inl ⟨hs, hne, by rw [if_pos hs, hno]; rfl⟩
    · refine .inr ⟨hs, by rw [if_neg hs], fun x => ?_⟩
      rw [Dict.get?_set]
      split
      · rename_i e; subst e; exact .mk _ hs
      · exact hd x

theorem save_ok {st : St A} {R : Reg A} (h : Refines st R) : ∀ (m : Dict Str (List (Res A))) (dir : Dir A),
    (∀ p ∈ m, st.mem.get? p.1 = some p.2) → dir.keys.Nodup → (∀ ref, File (dir.get? ref) (stored (R ref))) →
    ∀ dir', writeAll m dir = .ok () dir' → dir'.keys.Nodup ∧ ∀ ref, File (dir'.get? ref) (stored (R ref)) := by
  intro m
  induction m with
  | nil => intro dir _ h1 h2 dir' h3; cases h3; exact ⟨h1, h2⟩
  | cons p m ih =>
    obtain ⟨ref, rs⟩ := p
    intro dir hm h1 h2 dir' h3
    unfold writeAll at h3
    rcases save_step h dir h2 ref rs (hm (ref, rs) (by simp)) with ⟨_, _, hw⟩ | ⟨_, hw, hF⟩
    · rw [hw] at h3; exact absurd h3 (by simp)
    · rw [hw] at h3
      exact ih _ (fun p hp => hm p (by simp [hp])) (Dict.nodup_keys_set _ _ _ h1) hF dir' h3

theorem save_returns {st : St A} {R : Reg A} (h : Refines st R) (hall : ∀ ref, R ref ≠ [] → stored (R ref) ≠ []) :
    ∀ (m : Dict Str (List (Res A))) (dir : Dir A), (∀ p ∈ m, st.mem.get? p.1 = some p.2) →
    (∀ ref, File (dir.get? ref) (stored (R ref))) → ∃ dir', writeAll m dir = .ok () dir' := by
  intro m
  induction m with
  | nil => intro dir _ _; exact ⟨dir, rfl⟩
  | cons p m ih =>
    obtain ⟨ref, rs⟩ := p
    intro dir hm h2
    unfold writeAll
    rcases save_step h dir h2 ref rs (hm (ref, rs) (by simp)) with ⟨hs, hne, _⟩ | ⟨_, hw, hF⟩
    · exact absurd hs (hall ref hne)
    · rw [hw]
      exact ih _ (fun p hp => hm p (by simp [hp])) hF

/-- C41: `write_resource_files` raises if there is a reference with resources none of which is stored. -/
theorem save_raises {st : St A} {R : Reg A} (h : Refines st R) (ref : Str) (hne : R ref ≠ []) (hs : stored (R ref) = []) :
    (step st .save).error? = some .fileNotFound := by
  have main : ∀ (m : Dict Str (List (Res A))) (dir : Dir A), (∀ p ∈ m, st.mem.get? p.1 = some p.2) →
      (∀ ref, File (dir.get? ref) (stored (R ref))) → ref ∈ m.keys → (writeAll m dir).error? = some .fileNotFound := by
    intro m
    induction m with
    | nil => intro dir _ _ h; exact absurd h (by simp [Dict.keys])
    | cons p m ih =>
      obtain ⟨ref', rs⟩ := p
      intro dir hm h2 hmem
      unfold writeAll
      rcases save_step h dir h2 ref' rs (hm (ref', rs) (by simp)) with ⟨_, _, hw⟩ | ⟨hs', hw, hF⟩
      · rw [hw]; rfl
      · rw [hw]
        refine ih _ (fun p hp => hm p (by simp [hp])) hF ?_
        have : ref = ref' ∨ ref ∈ Dict.keys m := by simpa [Dict.keys] using hmem
        rcases this with rfl | h
        · exact absurd hs hs'
        · exact h
  have := main st.mem st.dir (fun p hp => Dict.get?_eq_some_of_mem _ h.memN hp) h.dir
    ((Dict.mem_keys_iff _ _).2 ⟨_, by rw [h.mem, if_neg hne]⟩)
  unfold step
  cases hw : writeAll st.mem st.dir with
  | ok _ _ => rw [hw] at this; exact absurd this (by simp [Out.error?])
  | err e _ => rw [hw] at this; exact this

/-! ### a new resolver -/

theorem fromDict_alike (oid : ℕ) (r : Res A) (hr : Wf r) (d : Rec A) (hd : Written d r) :
    ∃ r', fromDict oid r.ref d = .ok r' ∧ Alike r' r ∧ Wf r' ∧ Written d r' := by
  obtain ⟨s, hs⟩ := hr.source
  obtain ⟨h1, h2, h3, h4, h5, h6, h7, h8, h9⟩ := hd
  unfold fromDict
  rw [h8, hr.filetype]
  dsimp only
  unfold mkRes
  rw [if_neg (by simp [h1, hs])]
  have hif : ∀ i, i ∈ normalize (some d.ifaces) ↔ i ∈ r.ifaces := by
    intro i
    rw [mem_normalize, h3]
    constructor
    · rintro (rfl | h)
      · exact hr.basic
      · exact h.1
    · intro h; exact .inr ⟨h, hr.types i h⟩
  have hst : (d.static || isJson d.dtype) = r.isStatic := by
    rw [h5, h2]; simp [Res.isStatic]
  refine ⟨_, rfl, ⟨rfl, h1, h2, hif, h4, hst, h6, h7, hr.filetype.symm, h9⟩, ⟨⟨s, h1.trans hs⟩, rfl, ?_, ?_⟩,
    ⟨rfl, rfl, fun i => by rw [hif, h3], rfl, h5.trans hst.symm, rfl, rfl, h8.trans hr.filetype, rfl⟩⟩
  · exact (mem_normalize _ _).2 (.inl rfl)
  · intro i hi
    rcases (mem_normalize _ _).1 hi with rfl | h
    · decide
    · exact h.2

theorem fromDicts_alike (ref : Str) (recs : List (Rec A)) (l : List (Res A)) (hF : List.Forall₂ Written recs l)
    (hl : ∀ k ∈ l, k.ref = ref ∧ Wf k) : ∀ n,
    ∃ rs, fromDicts ref n recs = .ok rs ∧ List.Forall₂ (fun r k => Alike r k ∧ Wf r) rs l ∧ List.Forall₂ Written recs rs := by
  induction hF with
  | nil => intro n; exact ⟨[], rfl, .nil, .nil⟩
  | @cons k a recs l h _ ih =>
    intro n
    have ha := hl a (by simp)
    obtain ⟨r, h1, h2, h3, h6⟩ := fromDict_alike n a ha.2 k h
    obtain ⟨rs, h4, h5, h7⟩ := ih (fun k hk => hl k (by simp [hk])) (n + 1)
    refine ⟨r :: rs, ?_, .cons ⟨h2, h3⟩ h5, .cons h6 h7⟩
    unfold fromDicts
    rw [← ha.1, h1]
    dsimp only
    rw [ha.1, h4]
    rfl

theorem fromJson_alike (ref : Str) (recs : List (Rec A)) (l : List (Res A)) (hF : List.Forall₂ Written recs l)
    (hl : ∀ k ∈ l, k.ref = ref ∧ Wf k) :
    ∃ rs l' rs', fromJson ref recs = .ok rs ∧ rs.Pairwise (fun a b => a.prio ≤ b.prio) ∧ l'.Perm l ∧
      List.Forall₂ (fun r k => Alike r k ∧ Wf r) rs l' ∧ rs'.Perm rs ∧ List.Forall₂ Written recs rs' := by
  obtain ⟨rs, h1, h2, h5⟩ := fromDicts_alike ref recs l hF hl 0
  obtain ⟨l', h3, h4⟩ := List.perm_comp_forall₂ (byPriority_perm rs) h2
  exact ⟨byPriority rs, l', rs, by unfold fromJson; rw [h1]; rfl, byPriority_sorted rs, h4, h3, (byPriority_perm rs).symm, h5⟩

/-- what indexing a directory gives -/
theorem index_spec (ok : Str → List (Rec A) → Prop) (hok : ∀ ref l, ok ref l → ∃ rs, fromJson ref l = .ok rs) :
    ∀ (d : Dir A) (m : Dict Str (List (Res A))), d.keys.Nodup → m.keys.Nodup →
    (∀ ref f, (ref, f) ∈ d → ∃ l, f = some l ∧ ok ref l) →
    ∃ m', indexResources d m = .ok m' ∧ m'.keys.Nodup ∧ ∀ ref, m'.get? ref = match d.get? ref with
      | none => m.get? ref
      | some f => (fromJson ref (f.getD [])).toOption := by
  intro d
  induction d with
  | nil => intro m _ hm _; exact ⟨m, rfl, hm, fun ref => rfl⟩
  | cons p d ih =>
    obtain ⟨ref, f⟩ := p
    intro m hd hm hall
    obtain ⟨l, rfl, hl⟩ := hall ref f (by simp)
    obtain ⟨rs, hrs⟩ := hok ref l hl
    have hd' : ref ∉ Dict.keys d ∧ (Dict.keys d).Nodup := by simpa [Dict.keys] using hd
    obtain ⟨m', h1, h2, h3⟩ := ih (m.set ref rs) hd'.2 (Dict.nodup_keys_set _ _ _ hm) fun r f hf => hall r f (by simp [hf])
    refine ⟨m', by unfold indexResources; rw [hrs]; exact h1, h2, fun x => ?_⟩
    rw [h3]
    by_cases hx : ref = x
    · subst hx
      have hg : Dict.get? d ref = none := (Dict.not_mem_keys_iff _ _).1 hd'.1
      rw [hg]
      simp only [Dict.get?, if_true, Dict.get?_set_self, Option.getD_some, hrs]
      rfl
    · simp only [Dict.get?, hx, if_false, Dict.get?_set]

theorem restart_ok {st : St A} {R : Reg A} (h : Refines st R) :
    ∃ st' R', start st.dir = .ok st' ∧ Next R .restart R' ∧ Refines st' R' := by
  have hw : ∀ ref, ∀ k ∈ stored (R ref), k.ref = ref ∧ Wf k := fun ref k hk => h.wf ref _ ((mem_stored _ _).1 hk)
  -- each reference
  have hex : ∀ ref, ∃ rs l', rs.Pairwise (fun a b => a.prio ≤ b.prio) ∧ l'.Perm (stored (R ref)) ∧
      List.Forall₂ (fun r k => Alike r k ∧ Wf r) rs l' ∧ File (st.dir.get? ref) rs ∧
      ∀ recs, st.dir.get? ref = some (some recs) → fromJson ref recs = .ok rs := by
    intro ref
    rcases h.dir ref with ⟨he, hd⟩ | ⟨hn, recs, l, hd, hperm, hF⟩
    · rw [he, hd]
      exact ⟨[], [], .nil, .refl _, .nil, .inl ⟨rfl, rfl⟩, fun recs hr => absurd hr (by simp)⟩
    · obtain ⟨rs, l', rs', h1, h2, h3, h4, h5, h6⟩ := fromJson_alike ref recs l hF fun k hk => hw ref k (hperm.mem_iff.1 hk)
      refine ⟨rs, l', h2, h3.trans hperm, h4, .inr ⟨?_, recs, rs', hd, h5, h6⟩, ?_⟩
      · intro e
        subst e
        cases h4
        have := (h3.trans hperm).length_eq
        exact hn (List.length_eq_zero_iff.1 this.symm)
      · intro recs' hr
        rw [hd] at hr
        cases hr
        exact h1
  choose rs l' hsort hperm hF hfile hjson using hex
  obtain ⟨m', h1, h2, h3⟩ := index_spec (fun ref recs => st.dir.get? ref = some (some recs))
    (fun ref recs hl => ⟨rs ref, hjson ref recs hl⟩) st.dir [] h.dirN (by simp [Dict.keys]) (by
        intro ref f hf
        have hg := Dict.get?_eq_some_of_mem _ h.dirN hf
        rcases hfile ref with ⟨_, hd⟩ | ⟨_, recs, _, hd, _⟩
        · rw [hd] at hg; exact absurd hg (by simp)
        · rw [hd] at hg; cases hg; exact ⟨recs, rfl, hd⟩)
  have hmap : ∀ ref, ((rs ref).map fun r => (r, true)).map Prod.fst = rs ref := by intro ref; simp [List.map_map, Function.comp_def]
  have hstored : ∀ ref, stored ((rs ref).map fun r => (r, true)) = rs ref := by
    intro ref; unfold stored; rw [List.filter_eq_self.2 (by simp)]; exact hmap ref
  have hser : ∀ (a b : List (Res A)), List.Forall₂ (fun r k => Alike r k ∧ Wf r) a b → a.map Res.source = b.map Res.source := by
    intro a b hab
    induction hab with
    | nil => rfl
    | cons h _ ih => simp [h.1.2.1, ih]
  have hmem : ∀ ref, ∀ r ∈ rs ref, r.ref = ref ∧ Wf r := by
    intro ref
    have : ∀ (a b : List (Res A)), List.Forall₂ (fun r k => Alike r k ∧ Wf r) a b → (∀ k ∈ b, k.ref = ref) → ∀ r ∈ a, r.ref = ref ∧ Wf r := by
      intro a b hab
      induction hab with
      | nil => intro _ r hr; exact absurd hr (by simp)
      | cons h _ ih =>
        intro hb r hr
        rcases List.mem_cons.1 hr with rfl | hr
        · exact ⟨h.1.1.trans (hb _ (by simp)), h.2⟩
        · exact ih (fun k hk => hb k (by simp [hk])) r hr
    exact this _ _ (hF ref) fun k hk => (hw ref k ((hperm ref).mem_iff.1 hk)).1
  refine ⟨⟨m', st.dir⟩, fun ref => (rs ref).map fun r => (r, true), by unfold start; rw [h1]; rfl, ?_, ?_⟩
  · intro ref
    refine ⟨List.pairwise_map.2 (hsort ref), l' ref, hperm ref, ?_⟩
    rw [List.forall₂_map_left_iff]
    exact (hF ref).imp fun _ _ h => ⟨rfl, h.1⟩
  · refine ⟨h2, h.dirN, ?_, ?_, ?_, ?_⟩
    · intro ref
      dsimp only
      rw [h3, hmap]
      rcases hfile ref with ⟨he, hd⟩ | ⟨hn, recs, _, hd, _⟩
      · rw [hd, he]; rfl
      · have hn' : ((rs ref).map fun r => (r, true)) ≠ [] := by simpa using hn
        rw [hd, if_neg hn']
        dsimp only
        rw [Option.getD_some, hjson ref recs hd]
        rfl
    · intro ref
      dsimp only
      rw [hstored]
      exact hfile ref
    · intro ref e he
      obtain ⟨r, hr, rfl⟩ := List.mem_map.1 he
      exact hmem ref r hr
    · intro ref
      rw [List.map_map]
      show ((rs ref).map Res.source).Nodup
      rw [hser _ _ (hF ref), ((hperm ref).map _).nodup_iff]
      have := h.uniq ref
      unfold stored
      rw [List.map_map]
      exact List.Nodup.sublist (List.filter_sublist.map _) this

/-! ### C41 -/

/-- C41, one operation: if it returns, it does what it should. -/
theorem step_refines {st : St A} {R : Reg A} (h : Refines st R) (op : Op A) (hop : ∀ r s, op = .add r s → Wf r) (st' : St A)
    (hs : step st op = .ok () st') : ∃ R', Next R op R' ∧ Refines st' R' := by
  cases op with
  | add r store =>
    have hr := hop r store rfl
    have hs : addResource st r store = .ok () st' := hs
    by_cases hp : ∃ e ∈ R r.ref, e.1.source = r.source
    · rw [add_present h r store hr hp] at hs
      cases hs
      exact ⟨R, by simp only [Next]; rw [if_pos hp], h⟩
    · obtain ⟨st'', h1, h2⟩ := add_new h r store hr hp
      rw [h1] at hs
      cases hs
      exact ⟨plus R r store, by simp only [Next]; rw [if_neg hp]; rfl, h2⟩
  | del r =>
    have hs : deleteResource st r = .ok () st' := hs
    rcases delete_spec h r with ⟨_, he⟩ | ⟨_, _, he, _⟩ | ⟨_, _, st'', h1, h2⟩
    · rw [hs] at he; exact absurd he (by simp [Out.error?])
    · rw [hs] at he; exact absurd he (by simp [Out.error?])
    · rw [h1] at hs
      cases hs
      exact ⟨minus R r, rfl, h2⟩
  | save =>
    unfold step at hs
    dsimp only at hs
    cases hw : writeAll st.mem st.dir with
    | err e dir => rw [hw] at hs; exact absurd hs (by simp)
    | ok u dir =>
      rw [hw] at hs
      cases hs
      obtain ⟨h1, h2⟩ := save_ok h st.mem st.dir (fun p hp => Dict.get?_eq_some_of_mem _ h.memN hp) h.dirN h.dir dir hw
      exact ⟨R, rfl, ⟨h.memN, h1, h.mem, h2, h.wf, h.uniq⟩⟩
  | restart =>
    obtain ⟨st'', R', h1, h2, h3⟩ := restart_ok h
    unfold step at hs
    dsimp only at hs
    rw [h1] at hs
    cases hs
    exact ⟨R', h2, h3⟩

/-- C41, for resources with a source and without `filetype`: after any history of operations that all return, what is
registered, and the files, are as the specification says. -/
theorem history_partial (ops : List (Op A)) (hops : ∀ r s, .add r s ∈ ops → Wf r) : ∀ (st st' : St A) (R : Reg A), Refines st R →
    run st ops = some st' → ∃ R', Hist R ops R' ∧ Refines st' R' := by
  induction ops with
  | nil => intro st st' R h hr; cases hr; exact ⟨R, .nil R, h⟩
  | cons op ops ih =>
    intro st st' R h hr
    unfold run at hr
    cases hs : step st op with
    | err e s => rw [hs] at hr; exact absurd hr (by simp)
    | ok u s =>
      rw [hs] at hr
      obtain ⟨R1, h1, h2⟩ := step_refines h op (fun r s e => hops r s (by simp [e])) s hs
      obtain ⟨R2, h3, h4⟩ := ih (fun r s hm => hops r s (by simp [hm])) s st' R1 h2 hr
      exact ⟨R2, .cons h1 h3, h4⟩

/-- C41: when everything is stored, only the deletion of a resource that is not registered raises, and everything remains
stored. -/
theorem stored_returns_partial {st : St A} {R : Reg A} (h : Refines st R) (hall : ∀ ref, ∀ e ∈ R ref, e.2 = true) (op : Op A)
    (hop : ∀ r s, op = .add r s → Wf r ∧ s = true) (hdel : ∀ r, op = .del r → ∃ b, (r, b) ∈ R r.ref) :
    ∃ st' R', step st op = .ok () st' ∧ Next R op R' ∧ Refines st' R' ∧ ∀ ref, ∀ e ∈ R' ref, e.2 = true := by
  have hst : ∀ ref, R ref ≠ [] → stored (R ref) ≠ [] := by
    intro ref hne he
    obtain ⟨e, l, hl⟩ := List.exists_cons_of_ne_nil hne
    have hm : e ∈ R ref := by rw [hl]; simp
    have : e.1 ∈ stored (R ref) := (mem_stored _ _).2 (by rw [← hall ref e hm]; exact hm)
    rw [he] at this
    exact absurd this (by simp)
  have hret : ∃ st', step st op = .ok () st' := by
    cases op with
    | add r s =>
      have hr := (hop r s rfl).1
      by_cases hp : ∃ e ∈ R r.ref, e.1.source = r.source
      · exact ⟨st, add_present h r s hr hp⟩
      · obtain ⟨st', h1, _⟩ := add_new h r s hr hp
        exact ⟨st', h1⟩
    | del r =>
      obtain ⟨b, hb⟩ := hdel r rfl
      have hne : R r.ref ≠ [] := List.ne_nil_of_mem hb
      rcases delete_spec h r with ⟨he, _⟩ | ⟨_, he, _⟩ | ⟨_, _, st', h1, _⟩
      · exact absurd ⟨b, hb⟩ he
      · exact absurd he (hst _ hne)
      · exact ⟨st', h1⟩
    | save =>
      obtain ⟨dir, hd⟩ := save_returns h hst st.mem st.dir (fun p hp => Dict.get?_eq_some_of_mem _ h.memN hp) h.dir
      exact ⟨_, by unfold step; dsimp only; rw [hd]⟩
    | restart =>
      obtain ⟨st', _, h1, _⟩ := restart_ok h
      exact ⟨st', by unfold step; dsimp only; rw [h1]⟩
  obtain ⟨st', hs⟩ := hret
  obtain ⟨R', h1, h2⟩ := step_refines h op (fun r s e => (hop r s e).1) st' hs
  refine ⟨st', R', hs, h1, h2, ?_⟩
  cases op with
  | add r s =>
    have hss := (hop r s rfl).2
    simp only [Next] at h1
    subst h1
    intro ref e he
    split at he
    · exact hall ref e he
    · dsimp only at he
      split at he
      · rcases List.mem_append.1 he with he | he
        · exact hall ref e he
        · simp only [List.mem_cons, List.not_mem_nil, or_false] at he
          rw [he]; exact hss
      · exact hall ref e he
  | del r =>
    simp only [Next] at h1
    subst h1
    intro ref e he
    dsimp only at he
    split at he
    · exact hall ref e (List.mem_filter.1 he).1
    · exact hall ref e he
  | save => simp only [Next] at h1; subst h1; exact hall
  | restart =>
    intro ref e he
    obtain ⟨_, l, hperm, hF⟩ := h1 ref
    clear h2 hs

    clear hperm
    generalize R' ref = l0 at he hF
    induction hF with
    | nil => exact absurd he (by simp)
    | cons h _ ih =>
      rcases List.mem_cons.1 he with rfl | he
      · exact h.1
      · exact ih he

/-- C41: adding a registered resource again changes nothing. -/
theorem add_again_partial {st : St A} {R : Reg A} (h : Refines st R) (r : Res A) (hr : Wf r) (s s' : Bool) (st' : St A)
    (ha : addResource st r s = .ok () st') : addResource st' r s' = .ok () st' := by
  by_cases hp : ∃ e ∈ R r.ref, e.1.source = r.source
  · rw [add_present h r s hr hp] at ha
    cases ha
    exact add_present h r s' hr hp
  · obtain ⟨st'', h1, h2⟩ := add_new h r s hr hp
    rw [h1] at ha
    cases ha
    refine add_present h2 r s' hr ⟨(r, s), ?_, rfl⟩
    simp [plus]

/-- whether the resource is registered after an operation, if no other resource clashes -/
def after (r : Res A) (b : Bool) : Op A → Bool
  | .add r' _ => if r' = r then true else b
  | .del r' => if r' = r then false else b
  | _ => b

/-- what the last operation on a resource was: true if it was added, false if it was deleted, or never mentioned -/
def lastAdded (r : Res A) (ops : List (Op A)) : Bool := ops.foldl (after r) false

/-- C41: in a history of adds, deletes and saves in which no two different resources have the same reference and source, a
resource is registered if and only if it was added and not deleted since. -/
theorem registered_iff_partial (ops : List (Op A)) (hops : ∀ r s, .add r s ∈ ops → Wf r) (hno : .restart ∉ ops)
    (hclash : ∀ r s r' s', .add r s ∈ ops → .add r' s' ∈ ops → r.ref = r'.ref → r.source = r'.source → r = r')
    (st' : St A) (hr : run (⟨[], []⟩ : St A) ops = some st') (r : Res A) :
    (∃ ref, Listed st' ref r) ↔ lastAdded r ops = true := by
  have main : ∀ (l pre : List (Op A)) (R R' : Reg A), ops = pre ++ l → Hist R l R' →
      (∀ ref e, e ∈ R ref → ref = e.1.ref ∧ ∃ s, .add e.1 s ∈ pre) →
      ∀ b, ((∃ c, (r, c) ∈ R r.ref) ↔ b = true) →
      ((∃ c, (r, c) ∈ R' r.ref) ↔ l.foldl (after r) b = true) := by
    intro l
    induction l with
    | nil => intro pre R R' _ hH _ b hb; cases hH; exact hb
    | cons op l ih =>
      intro pre R R' hpre hH hfrom b hb
      cases hH with
      | @cons _ R1 _ _ _ hn hH =>
        have hmem : op ∈ ops := by rw [hpre]; simp
        rw [List.foldl_cons]
        refine ih (pre ++ [op]) R1 R' (by rw [hpre]; simp) hH ?_ _ ?_
        · intro ref e he
          have weaken : e ∈ R ref → ref = e.1.ref ∧ ∃ s, .add e.1 s ∈ pre ++ [op] := by
            intro he
            obtain ⟨h1, s, h2⟩ := hfrom ref e he
            exact ⟨h1, s, by simp [h2]⟩
          cases op with
          | add r' s =>
            simp only [Next] at hn
            subst hn
            split at he
            · exact weaken he
            · dsimp only at he
              split at he
              · rename_i heq
                rcases List.mem_append.1 he with he | he
                · exact weaken he
                · simp only [List.mem_cons, List.not_mem_nil, or_false] at he
                  subst he
                  exact ⟨heq, s, by simp⟩
              · exact weaken he
          | del r' =>
            simp only [Next] at hn
            subst hn
            dsimp only at he
            split at he
            · exact weaken (List.mem_filter.1 he).1
            · exact weaken he
          | save => simp only [Next] at hn; subst hn; exact weaken he
          | restart => exact absurd hmem hno
        · cases op with
          | add r' s =>
            simp only [Next] at hn
            subst hn
            dsimp only [after]
            by_cases hp : ∃ e ∈ R r'.ref, e.1.source = r'.source
            · rw [if_pos hp, hb]
              by_cases hrr : r' = r
              · subst hrr
                obtain ⟨e, he, hs⟩ := hp
                obtain ⟨h1, s', h2⟩ := hfrom _ e he
                have : e.1 = r' := hclash e.1 s' r' s (by rw [hpre]; simp [h2]) hmem h1.symm hs
                have hin : ∃ c, (r', c) ∈ R r'.ref := ⟨e.2, by rw [← this]; rw [← this] at he; exact he⟩
                simp [hb.1 hin]
              · simp [hrr]
            · rw [if_neg hp]
              by_cases hrr : r' = r
              · subst hrr; simp
              · simp only [hrr, if_false]
                rw [← hb]
                have : ∀ c, (r, c) ∉ [(r', s)] := by
                  intro c hc
                  simp only [List.mem_cons, Prod.mk.injEq, List.not_mem_nil, or_false] at hc
                  exact hrr hc.1.symm
                by_cases hr2 : r.ref = r'.ref
                · simp only [hr2, if_true, List.mem_append, this, or_false]
                · simp only [hr2, if_false]
          | del r' =>
            simp only [Next] at hn
            subst hn
            dsimp only [after]
            by_cases hrr : r' = r
            · subst hrr; simp
            · simp only [hrr, if_false]
              rw [← hb]
              by_cases hr2 : r.ref = r'.ref
              · simp only [hr2, if_true, List.mem_filter, Ne.symm hrr, decide_true, and_true, ne_eq, not_false_eq_true]
              · simp only [hr2, if_false]
          | save => simp only [Next] at hn; subst hn; exact hb
          | restart => exact absurd hmem hno
  obtain ⟨R', h1, h2⟩ := history_partial ops hops _ st' _ refines_empty hr
  unfold lastAdded
  rw [← main ops [] (fun _ => []) R' rfl h1 (by simp) false (by simp)]
  constructor
  · rintro ⟨ref, hl⟩
    obtain ⟨c, hc⟩ := (h2.listed ref r).1 hl
    have := (h2.wf ref _ hc).1
    dsimp only at this
    exact ⟨c, by rw [this]; exact hc⟩
  · rintro ⟨c, hc⟩
    exact ⟨r.ref, (h2.listed _ r).2 ⟨c, hc⟩⟩

/-- C39, after such histories: UnknownOrigin is raised if and only if the origin hits the reference of no registered resource. -/
theorem unknown_iff_partial {st : St A} {R : Reg A} (h : Refines st R) (req : Str) (ifaces : Option (List String)) (strict : Bool) :
    resolve st req ifaces strict = .error .unknownOrigin ↔ ∀ ref r, Listed st ref r → ¬ Hits req ref strict := by
  rw [(resolve_unknown st req ifaces strict).1]
  constructor
  · rintro hno ref r ⟨rs, h1, _⟩
    exact hno ref (List.mem_map.2 ⟨_, h1, rfl⟩)
  · intro hno ref href
    obtain ⟨rs, hrs⟩ := (Dict.mem_keys_iff _ _).1 href
    rw [h.mem] at hrs
    split at hrs
    · exact absurd hrs (by simp)
    · rename_i hne
      obtain ⟨e, l, hl⟩ := List.exists_cons_of_ne_nil hne
      exact hno ref e.1 ((h.listed ref e.1).2 ⟨e.2, by rw [hl]; simp⟩)

/-! ### examples -/

theorem exRes_wf (oid : ℕ) (ref source : String) (ifaces : List String) (prio : ℤ) : Wf (exRes oid ref source ifaces prio) := by
  refine ⟨⟨_, rfl⟩, rfl, (mem_normalize _ _).2 (.inl rfl), fun i hi => ?_⟩
  rcases (mem_normalize _ _).1 hi with rfl | h
  · decide
  · exact h.2

def exHist : List (Op Unit) :=
  [.add (exRes 0 "a.b" "s" ["index"] 50) true, .add (exRes 1 "a.b" "t" [] 10) true, .add (exRes 2 "a.b" "s" [] 0) true,
   .add (exRes 3 "c" "u" ["background"] 5) true, .del (exRes 3 "c" "u" ["background"] 5), .save, .restart,
   .add (exRes 9 "a.b" "t" [] 10) false]

def show' (st : St Unit) : List (String × List (ℕ × String)) :=
  st.mem.map fun p => (String.ofList p.1, p.2.map fun r => (r.oid, String.ofList (r.source.getD [])))

/-- a history that meets the hypotheses: the second resource with the source "s" is not added, the other reference is gone, the
new resolver sorts by priority -/
example : (run (⟨[], []⟩ : St Unit) exHist).map show' = some [("a.b", [(1, "t"), (0, "s")])] := by decide +kernel
example : ∀ r s, .add r s ∈ exHist → Wf r := by
  intro r s h
  simp only [exHist, List.mem_cons, Op.add.injEq, reduceCtorEq, List.not_mem_nil, or_false, false_or] at h
  rcases h with ⟨rfl, _⟩ | ⟨rfl, _⟩ | ⟨rfl, _⟩ | ⟨rfl, _⟩ | ⟨rfl, _⟩ <;> exact exRes_wf ..

/-! ### witnesses -/

/-- a resource that is not stored -/
def exTemp : Res Unit := exRes 0 "a.b" "s" ["index"] 50

/-- C41 fails: deleting a registered resource that is not stored raises FileNotFoundError; C39 fails after that: the origin is not
unknown although no resource is left. -/
theorem delete_temp_raises : ∃ st st', addResource (⟨[], []⟩ : St Unit) exTemp false = .ok () st ∧
    deleteResource st exTemp = .err .fileNotFound st' ∧ (∀ ref r, ¬ Listed st' ref r) ∧
    resolve st' "a".toList none false = .ok [] := by
  refine ⟨⟨[("a.b".toList, [exTemp])], []⟩, ⟨[("a.b".toList, [])], []⟩, by rfl, by rfl, ?_, by decide +kernel⟩
  rintro ref r ⟨rs, h1, h2⟩
  simp only [List.mem_cons, Prod.mk.injEq, List.not_mem_nil, or_false] at h1
  rw [h1.2] at h2
  exact absurd h2 (by simp)

/-- C39 fails: asking whether a resource is registered makes its reference known. -/
theorem has_resource_makes_known : ∃ st, hasResource (⟨[], []⟩ : St Unit) exTemp = .ok false st ∧
    resolve (⟨[], []⟩ : St Unit) "a.b".toList none true = .error .unknownOrigin ∧
    resolve st "a.b".toList none true = .ok [] :=
  ⟨⟨[("a.b".toList, [])], []⟩, by rfl, by rfl, by decide +kernel⟩

/-- C41 fails: a resource that is to be downloaded cannot be added next to one with a source. -/
theorem download_clash : ∃ st, addResource (⟨[], []⟩ : St Unit) exTemp true = .ok () st ∧
    addResource st { exTemp with oid := 1, source := none, download := some "u".toList } true = .err .keyError st :=
  ⟨⟨[("a.b".toList, [exTemp])], [("a.b".toList, some [exTemp.serialize])]⟩, by rfl, by rfl⟩

/-- C41 fails: with the argument `filetype` another source comes back. -/
theorem filetype_changes_source : ∃ st, addResource (⟨[], []⟩ : St Unit) { exTemp with filetype := some ".mat".toList } true = .ok () st ∧
    (start st.dir).map show' = .ok [("a.b", [(0, "s.mat")])] :=
  ⟨⟨[("a.b".toList, [{ exTemp with filetype := some ".mat".toList }])],
    [("a.b".toList, some [({ exTemp with filetype := some ".mat".toList } : Res Unit).serialize])]⟩, by rfl, by decide +kernel⟩

/-- C41 fails when a file is damaged (for example by a crash in the middle of writing): the next resource that is stored for the
reference overwrites it. -/
theorem damaged_file_overwritten : ∃ st st', start ([("a.b".toList, none)] : Dir Unit) = .ok st ∧
    addResource st exTemp true = .ok () st' ∧ st'.dir = [("a.b".toList, some [exTemp.serialize])] :=
  ⟨⟨[], [("a.b".toList, none)]⟩, ⟨[("a.b".toList, [exTemp])], [("a.b".toList, some [exTemp.serialize])]⟩, by rfl, by rfl, by rfl⟩

end Rsv
