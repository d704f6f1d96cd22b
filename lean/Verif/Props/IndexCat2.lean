import Verif.Props.IndexCat

/-!
C168: indexing a source of a catalog, indexing it again, and indexing it anew with `force`.
-/

set_option linter.unusedSectionVars false

namespace Inx
open Rsv (Str Res St splitDots Refines Reg Hits Wf Listed)

variable {A E : Type} [DecidableEq A] [DecidableEq E]

theorem filter_set (P : Res A → Bool) (m : Dict Str (List (Res A))) (k : Str) (extra : List (Res A)) (hx : extra.filter P = []) :
    ((m.set k (Rsv.listOf m k ++ extra)).flatMap Prod.snd).filter P = (m.flatMap Prod.snd).filter P := by
  have main : ∀ (m : Dict Str (List (Res A))) (v : List (Res A)), (∀ w, m.get? k = some w → v.filter P = w.filter P) → (m.get? k = none → v.filter P = []) →
      ((m.set k v).flatMap Prod.snd).filter P = (m.flatMap Prod.snd).filter P := by
    intro m
    induction m with
    | nil => intro v _ h; simpa [Dict.set] using h rfl
    | cons p m ih =>
      intro v h1 h2
      obtain ⟨k', w⟩ := p
      by_cases hk : k' = k
      · subst hk
        have := h1 w (by simp [Dict.get?])
        simp [Dict.set, this]
      · simp only [Dict.set, if_neg hk, List.flatMap_cons, List.filter_append]
        rw [ih v (fun w' hw => h1 w' (by simpa [Dict.get?, hk] using hw)) (fun hw => h2 (by simpa [Dict.get?, hk] using hw))]
  refine main m _ ?_ ?_
  · intro w hw
    simp [Rsv.listOf, hw, hx]
  · intro hw
    simp [Rsv.listOf, hw, hx]

theorem filter_touch (P : Res A → Bool) (m : Dict Str (List (Res A))) (k : Str) :
    ((Rsv.touch m k).flatMap Prod.snd).filter P = (m.flatMap Prod.snd).filter P := by
  unfold Rsv.touch
  split
  · rfl
  · rename_i h
    have := filter_set P m k [] rfl
    rw [Rsv.listOf, h] at this
    simpa using this

/-- adding a resource does not change what is found for another source -/
theorem withSource_add {st st' : St A} {r : Res A} {store : Bool} (h : Rsv.addResource st r store = .ok () st') (s : Option Str) (hs : r.source ≠ s) :
    Rsv.withSource st' s = Rsv.withSource st s := by
  unfold Rsv.addResource at h
  cases he : Rsv.existsIn st.dir r with
  | error e => rw [he] at h; cases h
  | ok b =>
    rw [he] at h
    cases b with
    | true => cases h; rfl
    | false =>
      simp only [Rsv.hasResource] at h
      cases ha : Rsv.anyMatch r.serialize (Rsv.listOf st.mem r.ref) with
      | error e => rw [ha] at h; cases h
      | ok b =>
        rw [ha] at h
        simp only [Out.bind] at h
        cases b with
        | true => cases h; exact filter_touch _ _ _
        | false =>
          simp only [Bool.false_eq_true, if_false] at h
          have key : ∀ d, Rsv.withSource (⟨Rsv.append (Rsv.touch st.mem r.ref) r, d⟩ : St A) s = Rsv.withSource st s := by
            intro d
            unfold Rsv.withSource Rsv.append
            rw [filter_set _ _ _ [r] (by simp [hs]), filter_touch]
          unfold Rsv.register at h
          cases store with
          | false => simp only [Bool.false_eq_true, if_false] at h; cases h; exact key _
          | true =>
            simp only [if_true] at h
            cases hw : Rsv.writeToFile st.dir r with
            | error e => rw [hw] at h; cases h
            | ok d => rw [hw] at h; cases h; exact key _

theorem mem_withSource {st : St A} {R : Reg A} (h : Refines st R) (s : Option Str) (r : Res A) :
    r ∈ Rsv.withSource st s ↔ (∃ b, (r, b) ∈ R r.ref) ∧ r.source = s := by
  unfold Rsv.withSource
  simp only [List.mem_filter, List.mem_flatMap, decide_eq_true_eq]
  refine and_congr ?_ Iff.rfl
  constructor
  · rintro ⟨⟨ref, l⟩, h1, h2⟩
    obtain ⟨b, hb⟩ := (h.listed ref r).mp ⟨l, h1, h2⟩
    have := (h.wf ref _ hb).1
    exact ⟨b, by rw [show r.ref = ref from this]; exact hb⟩
  · intro hb
    obtain ⟨l, h1, h2⟩ := (h.listed r.ref r).mpr hb
    exact ⟨(r.ref, l), h1, h2⟩

/-- the resource made for an index -/
def indexRes (rest : A) (oid : ℕ) (ref path : Str) (prio : ℤ) : Res A :=
  { oid := oid, ref := ref, source := some path, dtype := "json".toList, ifaces := Rsv.normalize (some ["index"]), prio := prio,
    static := true, internal := true, download := none, filetype := none, rest := rest }

theorem indexRes_wf (rest : A) (oid : ℕ) (ref path : Str) (prio : ℤ) : Wf (indexRes rest oid ref path prio) where
  source := ⟨path, rfl⟩
  filetype := rfl
  basic := (Rsv.mem_normalize _ _).2 (.inl rfl)
  types := by
    intro i hi
    rcases (Rsv.mem_normalize _ _).1 hi with rfl | ⟨_, h⟩
    · decide
    · exact h

/-- what is at a source, as the catalog knows it: the archive of the resource if it is loaded, or what is there to be loaded -/
def archiveOf (w : World E) (c : Cat A E) (r : Res A) : Option (Ar E) :=
  match c.loaded.get? r.oid with
  | some a => some a
  | none => (r.source.bind w.live).map fun l => ⟨r.ref, l⟩

theorem check_ok {w : World E} {r : Res A} {c c' : Cat A E} {a : Ar E} (h : check w r c = .ok a c') :
    archiveOf w c r = some a ∧ c'.rs = c.rs ∧ c'.files = c.files ∧ c'.next = c.next ∧ c'.loaded.get? r.oid = some a ∧
      ∀ o ≠ r.oid, c'.loaded.get? o = c.loaded.get? o := by
  unfold check at h
  unfold archiveOf
  cases hl : c.loaded.get? r.oid with
  | some x => rw [hl] at h; cases h; exact ⟨rfl, rfl, rfl, rfl, hl, fun _ _ => rfl⟩
  | none =>
    rw [hl] at h
    simp only at h
    cases hs : r.source.bind w.live with
    | none => rw [hs] at h; cases h
    | some l =>
      rw [hs] at h; cases h
      refine ⟨rfl, rfl, rfl, rfl, Dict.get?_set_self _ _ _, fun o ho => Dict.get?_set_ne _ _ (Ne.symm ho)⟩

theorem check_loaded {w : World E} {r : Res A} {c : Cat A E} {a : Ar E} (h : c.loaded.get? r.oid = some a) : check w r c = .ok a c := by
  simp [check, h]

/-- the resources of the catalog are other objects than the next one -/
def Fresh (c : Cat A E) (R : Reg A) : Prop := ∀ ref, ∀ e ∈ R ref, e.1.oid < c.next

/-- **C168** indexing a source that was not indexed: the index has the entities of the archive, it is registered under the reference that is
returned, and the file has it; nothing else is changed in the registry -/
theorem index_made {w : World E} {rest : A} {date source r : Str} {prio : ℤ} {force : Bool} {c c' : Cat A E} {R : Reg A} (hR : Refines c.rs R)
    (hF : Fresh c R) (hno : ∀ ref, ∀ e ∈ R ref, e.1.source ≠ some (w.inx source)) (hnf : force = true ∨ c.files.get? (w.inx source) = none)
    (h : indexSource w rest date source prio force c = .ok r c') :
    ∃ res a stored, (∃ b, (res, b) ∈ R res.ref) ∧ res.source = some source ∧ archiveOf w c res = some a ∧
      newRef date date a.ref (some "index".toList) = .ok r ∧
      Refines c'.rs (fun x => if x = r then R x ++ [(indexRes rest c.next r (w.inx source) (min prio res.prio), stored)] else R x) ∧
      (stored = true ↔ (res, true) ∈ R res.ref) ∧
      c'.loaded.get? c.next = some ⟨r, a.ents⟩ ∧ c'.files.get? (w.inx source) = some ⟨r, a.ents⟩ ∧ c'.loaded.get? res.oid = some a ∧
      (∃ l, Rsv.withSource c.rs (some source) = res :: l) ∧ (w.inx source ≠ source → Rsv.withSource c'.rs (some source) = Rsv.withSource c.rs (some source)) ∧
      c'.next = c.next + 1 := by
  unfold indexSource at h
  cases hw : Rsv.withSource c.rs (some source) with
  | nil => rw [hw] at h; cases h
  | cons res l =>
    rw [hw] at h
    simp only at h
    have hres := (mem_withSource hR (some source) res).mp (by rw [hw]; simp)
    cases hck : check w res c with
    | err e c1 => rw [hck] at h; cases h
    | ok a c1 =>
      rw [hck] at h
      simp only at h
      obtain ⟨k1, k2, k3, k4, k5, k6⟩ := check_ok hck
      obtain ⟨b, hb⟩ := hres.1
      have hwf := (hR.wf _ _ hb).2
      have hex := Rsv.existsIn_eq c.rs.dir res hwf _ (hR.wfStored res.ref) (hR.dir res.ref)
      rw [← k2] at hex
      rw [hex] at h
      simp only at h
      clear hex
      have hst : (decide (∃ k ∈ Rsv.stored (R res.ref), k.source = res.source) = true) ↔ (res, true) ∈ R res.ref := by
        rw [decide_eq_true_eq]
        constructor
        · rintro ⟨k, hk, hks⟩
          have hk' := (Rsv.mem_stored _ _).mp hk
          have := hR.inj res.ref _ _ hk' hb hks
          have h1 : k = res := congrArg Prod.fst this
          rw [← h1]; rw [h1]; rw [h1] at hk'; exact hk'
        · intro hk
          exact ⟨res, (Rsv.mem_stored _ _).mpr hk, rfl⟩
      generalize decide (∃ k ∈ Rsv.stored (R res.ref), k.source = res.source) = stored at h hst
      have hfresh : ∀ c2 : Cat A E, c2 = c1 →
          (match newRef date date a.ref (some "index".toList) with
          | .error e => (Out.err e c2 : Out (Cat A E) Err Str)
          | .ok ref =>
            match newIndex rest ⟨ref, a.ents⟩ (w.inx source) (min prio res.prio) stored { c2 with files := c2.files.set (w.inx source) ⟨ref, a.ents⟩ } with
            | .err e c => .err e c
            | .ok _ c => .ok ref c) = .ok r c' := by
        rintro c2 rfl
        rcases hnf with rfl | hnf
        · cases hg : c2.files.get? (w.inx source) with
          | none => rw [hg] at h; exact h
          | some f => rw [hg] at h; simp only [if_true] at h; exact h
        · have hnf' : c2.files.get? (w.inx source) = none := by rw [k3]; exact hnf
          rw [hnf'] at h; exact h
      have h := hfresh c1 rfl
      cases hr : newRef date date a.ref (some "index".toList) with
      | error e => rw [hr] at h; cases h
      | ok ref =>
        rw [hr] at h
        simp only [newIndex] at h
        have hnew : ¬ ∃ e ∈ R (indexRes rest c.next ref (w.inx source) (min prio res.prio)).ref, e.1.source = (indexRes rest c.next ref (w.inx source) (min prio res.prio)).source := by
          rintro ⟨e, he, hs⟩
          exact hno _ e he hs
        obtain ⟨st', ha, hp⟩ := Rsv.add_new hR (indexRes rest c.next ref (w.inx source) (min prio res.prio)) stored (indexRes_wf ..) hnew
        have ha' := ha
        unfold indexRes at ha
        rw [k2, k4, ha] at h
        simp only [Out.ok.injEq] at h
        obtain ⟨rfl, rfl⟩ := h
        have hlt : res.oid ≠ c.next := Nat.ne_of_lt (hF _ _ hb)
        refine ⟨res, a, stored, ⟨b, hb⟩, hres.2, k1, hr, hp, hst, Dict.get?_set_self _ _ _, Dict.get?_set_self _ _ _, ?_, ⟨l, rfl⟩, ?_, rfl⟩
        · rw [Dict.get?_set_ne _ _ (Ne.symm hlt)]; exact k5
        · intro hne
          rw [← hw]
          exact withSource_add ha' (some source) (by simpa [indexRes] using hne)

/-- **C168** indexing again without `force` gives the same reference and changes nothing -/
theorem index_again {w : World E} {rest : A} {date date' source r : Str} {prio prio' : ℤ} {force : Bool} {c c' : Cat A E} {R : Reg A} (hR : Refines c.rs R)
    (hF : Fresh c R) (hno : ∀ ref, ∀ e ∈ R ref, e.1.source ≠ some (w.inx source)) (hnf : force = true ∨ c.files.get? (w.inx source) = none)
    (hne : w.inx source ≠ source) (h : indexSource w rest date source prio force c = .ok r c') :
    indexSource w rest date' source prio' false c' = .ok r c' := by
  obtain ⟨res, a, stored, ⟨b, hb⟩, hs, -, hr, hR', hst, hl, hf, hla, ⟨l, hw⟩, hw', hn⟩ := index_made hR hF hno hnf h
  have hb' : (res, b) ∈ (fun x => if x = r then R x ++ [(indexRes rest c.next r (w.inx source) (min prio res.prio), stored)] else R x) res.ref := by
    simp only
    split
    · exact List.mem_append_left _ hb
    · exact hb
  unfold indexSource
  rw [hw' hne, hw]
  simp only
  rw [check_loaded hla]
  simp only
  rw [Rsv.existsIn_eq c'.rs.dir res (hR.wf _ _ hb).2 _ (hR'.wfStored res.ref) (hR'.dir res.ref)]
  simp only [hf, Bool.false_eq_true, if_false]
  have hmem : ∀ x ∈ Rsv.withSource c'.rs (some (w.inx source)), x.ref = r := by
    intro x hx
    obtain ⟨⟨b', hb'⟩, hs'⟩ := (mem_withSource hR' _ x).mp hx
    by_contra hxr
    simp only [if_neg hxr] at hb'
    exact hno _ _ hb' hs'
  have hin : indexRes rest c.next r (w.inx source) (min prio res.prio) ∈ Rsv.withSource c'.rs (some (w.inx source)) :=
    (mem_withSource hR' _ _).mpr ⟨⟨stored, by simp [indexRes]⟩, rfl⟩
  cases hx : Rsv.withSource c'.rs (some (w.inx source)) with
  | nil => rw [hx] at hin; cases hin
  | cons x l' =>
    have := hmem x (by rw [hx]; simp)
    simp [this]

/-- the index that is there is not replaced: whatever is loaded for the resources of the catalog stays, whatever is indexed; and if the index of the
same day is registered already, nothing is registered, so that the entities of the new index are in the file only -/
theorem reindex_stale {w : World E} {rest : A} {date source : Str} {prio : ℤ} {c : Cat A E} {R : Reg A} (hR : Refines c.rs R)
    (hF : Fresh c R) {res : Res A} {l : List (Res A)} (hw : Rsv.withSource c.rs (some source) = res :: l) {a : Ar E} (ha : c.loaded.get? res.oid = some a)
    {old : Res A} {b : Bool} (ho : (old, b) ∈ R old.ref) (hos : old.source = some (w.inx source)) (hr : newRef date date a.ref (some "index".toList) = .ok old.ref) :
    ∃ c', indexSource w rest date source prio true c = .ok old.ref c' ∧ c'.rs = c.rs ∧ c'.files.get? (w.inx source) = some ⟨old.ref, a.ents⟩ ∧
      ∀ ref, ∀ e ∈ R ref, c'.loaded.get? e.1.oid = c.loaded.get? e.1.oid := by
  have hres := (mem_withSource hR (some source) res).mp (by rw [hw]; simp)
  obtain ⟨b', hb'⟩ := hres.1
  unfold indexSource
  rw [hw]
  simp only
  rw [check_loaded ha]
  simp only
  rw [Rsv.existsIn_eq c.rs.dir res (hR.wf _ _ hb').2 _ (hR.wfStored res.ref) (hR.dir res.ref)]
  simp only [hr, if_true]
  have hadd : ∀ stored, Rsv.addResource c.rs (indexRes rest c.next old.ref (w.inx source) (min prio res.prio)) stored = .ok () c.rs :=
    fun stored => Rsv.add_present hR _ stored (indexRes_wf ..) ⟨(old, b), ho, hos⟩
  simp only [indexRes] at hadd
  refine ⟨{ c with loaded := c.loaded.set c.next ⟨old.ref, a.ents⟩, next := c.next + 1, files := c.files.set (w.inx source) ⟨old.ref, a.ents⟩ }, ?_, rfl,
    Dict.get?_set_self _ _ _, ?_⟩
  · simp only [newIndex, hadd]
    cases c.files.get? (w.inx source) <;> rfl
  · intro ref e he
    exact Dict.get?_set_ne _ _ (Nat.ne_of_gt (hF _ _ he))

/-! ### an archive `local.db` at `/data/db`, registered and stored; entities are numbers -/

namespace Ex

def src : Str := "/data/db".toList
def path : Str := "$ROOT/index/x".toList
def date : Str := "20200101".toList
def dbRes : Res Unit := { oid := 0, ref := "local.db".toList, source := some src, dtype := "x".toList, ifaces := ["basic", "inventory"], prio := 50,
                          static := false, internal := false, download := none, filetype := none, rest := () }
def world (l : List ℕ) : World ℕ := { live := fun s => if s = src then some l else none, inx := fun _ => path }
def st0 : St Unit := match Rsv.addResource ⟨[], []⟩ dbRes true with | .ok _ s => s | .err _ s => s
def c0 : Cat Unit ℕ := ⟨st0, [], [], 1⟩

def dbWf : Wf dbRes := ⟨⟨_, rfl⟩, rfl, by decide, by decide⟩

theorem st0_refines : Refines st0 (Rsv.plus (fun _ => []) dbRes true) := by
  obtain ⟨s, h1, h2⟩ := Rsv.add_new Rsv.refines_empty dbRes true dbWf (by simp)
  unfold st0
  rw [h1]
  exact h2

def view (o : Out (Cat Unit ℕ) Err Str) : Option (String × (List (String × List String) × (List (ℕ × List ℕ) × List (String × List ℕ)))) :=
  match o with
  | .ok r c => some (String.ofList r, c.rs.mem.map (fun p => (String.ofList p.1, p.2.map fun r => String.ofList (r.source.getD []))),
      c.loaded.map (fun p => (p.1, p.2.ents)), c.files.map fun p => (String.ofList p.1, p.2.ents))
  | .err _ _ => none

set_option synthInstance.maxSize 1000 in
set_option synthInstance.maxHeartbeats 200000 in
/-- the index is made -/
example : view (indexSource (world [7, 8]) () date src 60 false c0) =
    some ("local.db.index.20200101", [("local.db", ["/data/db"]), ("local.db.index.20200101", ["$ROOT/index/x"])],
      [(0, [7, 8]), (1, [7, 8])], [("$ROOT/index/x", [7, 8])]) := by decide +kernel

/-- the hypotheses of `index_made` and `index_again` hold of it -/
example : Refines c0.rs (Rsv.plus (fun _ => []) dbRes true) ∧ Fresh c0 (Rsv.plus (fun _ => []) dbRes true) ∧
    (∀ ref, ∀ e ∈ Rsv.plus (fun _ => []) dbRes true ref, e.1.source ≠ some ((world [7, 8]).inx src)) ∧ (world [7, 8]).inx src ≠ src := by
  refine ⟨st0_refines, ?_, ?_, by decide⟩
  · intro ref e he
    simp only [Rsv.plus] at he
    split at he
    · simp only [List.nil_append, List.mem_singleton] at he; subst he; decide
    · cases he
  · intro ref e he
    simp only [Rsv.plus] at he
    split at he
    · simp only [List.nil_append, List.mem_singleton] at he; subst he; decide
    · cases he

/-- the catalog after the first index, when entities have been added to the archive since -/
def c1 : Cat Unit ℕ :=
  let c := match indexSource (world [7, 8]) () date src 60 false c0 with | .ok _ c => c | .err _ c => c
  { c with loaded := c.loaded.set 0 ⟨"local.db".toList, [7, 8, 9]⟩ }

set_option synthInstance.maxSize 1000 in
set_option synthInstance.maxHeartbeats 200000 in
/-- indexed anew the same day: the file has the new entity, the resource answers with the old index -/
theorem stale_index : view (indexSource (world [7, 8]) () date src 60 true c1) =
    some ("local.db.index.20200101", [("local.db", ["/data/db"]), ("local.db.index.20200101", ["$ROOT/index/x"])],
      [(0, [7, 8, 9]), (1, [7, 8]), (2, [7, 8, 9])], [("$ROOT/index/x", [7, 8, 9])]) := by decide +kernel

/-- an origin that ends in a date: its index does not belong to it; and two of them get the same reference -/
theorem dated_origin : ∃ r, newRef date date "local.db.20190101".toList (some "index".toList) = .ok r ∧ ¬ Hits "local.db.20190101".toList r false ∧
    newRef date date "local.db.20180101".toList (some "index".toList) = .ok r :=
  ⟨"local.db.index.20200101".toList, by decide +kernel, by rw [← Rsv.refMatches_iff]; decide +kernel, by decide +kernel⟩

/-- an origin that does not -/
example : ∃ r, newRef date date "local.db".toList (some "index".toList) = .ok r ∧ Hits "local.db".toList r false :=
  ⟨"local.db.index.20200101".toList, by decide +kernel, by rw [← Rsv.refMatches_iff]; decide +kernel⟩

end Ex

end Inx
