import Verif.Props.Ilcd2

/-!
C170: units of ILCD flow properties. C172: ILCD loads that fail. Examples.
-/

set_option linter.unusedSectionVars false

namespace Ilcd
open Proc (Dir Key)
open Spold1 (valOf)

variable {U P Q T : Type} [DecidableEq U] [DecidableEq P] [DecidableEq T]

/-! ### failures -/

theorem addXs_none {rf : Option (U × Dir)} {l : List (X U)} (h : ∃ y ∈ l, y.flow = none) (p : Proc.State U Q T) :
    ∃ e p', addXs rf l p = .err e p' := by
  induction l generalizing p with
  | nil => obtain ⟨y, hy, -⟩ := h; cases hy
  | cons y l ih =>
    unfold addXs
    cases hy : y.flow with
    | none => exact ⟨_, _, rfl⟩
    | some f =>
      have ih := ih (by
        obtain ⟨z, hz, e⟩ := h
        rcases List.mem_cons.mp hz with rfl | hz
        · rw [hy] at e; cases e
        · exact ⟨z, hz, e⟩)
      simp only
      split
      · exact ⟨_, _, rfl⟩
      · split
        · exact ⟨_, _, rfl⟩
        · split
          · split
            · exact ⟨_, _, rfl⟩
            · exact ih _
          · exact ih _

/-- a flow that is written with capitals (or without hyphens), here and in its file, is not found again -/
theorem second_none {env : Env U P} {x : ExEl U P} {a a' : Ar U Q T} {f : Option U} (ha : Usual env a) (hx : env.canon x.uid ≠ x.uid)
    (hc : ∀ fd, env.flowFile x.uri = .doc fd → env.canon fd.uuid = env.canon x.uid ∧ env.canon fd.uuid ≠ fd.uuid)
    (hin : env.canon x.uid ∈ a.flows.keys) (h : flowOf env x a = .ok f a') : f = none := by
  have hnot : ∀ v, env.canon v ≠ v → a.flows.has v = false := by
    intro v hv
    cases hh : a.flows.has v with
    | false => rfl
    | true => exact absurd (ha.flows _ ((Dict.has_iff _ _).mp hh)) hv
  have hdummy : ∀ a1 : Ar U Q T, a1.flows = a.flows → a1.flows.has (env.canon x.uid) = true := by
    intro a1 h1; rw [h1]; exact (Dict.has_iff _ _).mpr hin
  have hch : ∀ (r : Out (Ar U Q T) Err (Option U)), childFlow env x.uid x.uri a = r → (∃ a1, r = .ok none a1) ∨ (∃ e a1, r = .err e a1 ∧ a1.flows = a.flows) := by
    rintro r rfl
    unfold childFlow
    rw [hnot _ hx]
    simp only [Bool.false_eq_true, if_false]
    unfold fetchFlow
    cases hfile : env.flowFile x.uri with
    | missing => exact .inr ⟨_, a, rfl, rfl⟩
    | noFile => exact .inr ⟨_, a, rfl, rfl⟩
    | badXml => exact .inr ⟨_, a, rfl, rfl⟩
    | doc fd =>
      obtain ⟨c1, c2⟩ := hc fd hfile
      simp only [createFlow, hnot _ c2, Bool.false_eq_true, if_false]
      have hf := flowProps_frame (env := env) (ref := fd.refProp) fd.props ⟨none, []⟩ a
      cases hp : flowProps env fd.refProp fd.props ⟨none, []⟩ a with
      | err e a1 =>
        rw [hp] at hf
        simp only [Out.state] at hf
        cases e with
        | key => exact .inl ⟨a1, rfl⟩
        | fileNotFound => exact .inr ⟨_, a1, rfl, hf.1⟩
        | badXml => exact .inr ⟨_, a1, rfl, hf.1⟩
        | index => exact .inr ⟨_, a1, rfl, hf.1⟩
        | value => exact .inr ⟨_, a1, rfl, hf.1⟩
        | zeroDivision => exact .inr ⟨_, a1, rfl, hf.1⟩
        | «attribute» => exact .inr ⟨_, a1, rfl, hf.1⟩
        | proc e => exact .inr ⟨_, a1, rfl, hf.1⟩
      | ok g a1 =>
        rw [hp] at hf
        simp only [Out.state] at hf
        have : a1.flows.has (env.canon fd.uuid) = true := by rw [c1]; exact hdummy a1 hf.1
        simp only [this, if_true]
        exact .inl ⟨a1, rfl⟩
  unfold flowOf at h
  rcases hch _ rfl with ⟨a1, h1⟩ | ⟨e, a1, h1, h2⟩
  · rw [h1] at h; cases h; rfl
  · rw [h1] at h
    cases e with
    | key => simp only [hdummy a1 h2, if_true] at h; cases h
    | badXml => simp only [hdummy a1 h2, if_true] at h; cases h
    | fileNotFound => cases h
    | index => cases h
    | value => cases h
    | zeroDivision => cases h
    | «attribute» => cases h
    | proc e => cases h

/-- the same, wherever it is in the list -/
theorem capital_reads {env : Env U P} {x : ExEl U P} {exs : List (ExEl U P)} {a a' : Ar U Q T} {l : List (X U)} (ha : Usual env a) (hc : Consistent env exs)
    (hx : env.canon x.uid ≠ x.uid) (hfx : ∀ fd, env.flowFile x.uri = .doc fd → env.canon fd.uuid ≠ fd.uuid)
    (hin : env.canon x.uid ∈ a.flows.keys) (hm : x ∈ exs) (h : readExs env exs a = .ok l a') : ∃ y ∈ l, y.flow = none := by
  induction exs generalizing a l with
  | nil => cases hm
  | cons z exs ih =>
    rw [readExs_cons] at h
    cases hf : flowOf env z a with
    | err e a1 => rw [hf] at h; cases h
    | ok f a1 =>
      rw [hf] at h
      simp only at h
      cases hr : readExs env exs a1 with
      | err e a2 => rw [hr] at h; cases h
      | ok l' a2 =>
        rw [hr] at h
        simp only [Out.ok.injEq] at h
        obtain ⟨rfl, rfl⟩ := h
        rcases List.mem_cons.mp hm with rfl | hm'
        · exact ⟨_, List.mem_cons_self, second_none ha hx (fun fd hfd => ⟨hc x (by simp) fd hfd, hfx fd hfd⟩) hin hf⟩
        · have hcs : Consistent env exs := fun y hy => hc y (List.mem_cons_of_mem _ hy)
          have next : Usual env a1 ∧ env.canon x.uid ∈ a1.flows.keys := by
            rcases flowOf_spec ha (hc z (by simp)) with ⟨b, h1, h2, -, h4⟩ | ⟨b, h1, h2, -⟩ | ⟨e, b, h1, -⟩
            · rw [hf] at h1; cases h1; exact ⟨h2, (h4 _).mpr (.inl hin)⟩
            · rw [hf] at h1; cases h1; exact ⟨⟨ha.idem, by rw [h2]; exact ha.flows⟩, by rw [h2]; exact hin⟩
            · rw [hf] at h1; cases h1
          obtain ⟨y, hy, e⟩ := ih next.1 hcs next.2 hm' hr
          exact ⟨y, List.mem_cons_of_mem _ hy, e⟩

/-- **C172** (fails) a process that lists twice a flow whose UUID is written with capitals or without hyphens, in the process and in the file of the flow,
always fails to load -/
theorem capitals_twice_fail {env : Env U P} {d : ProcDoc U P} {a : Ar U Q T} (ha : Usual env a) (hc : Consistent env d.exchs) {x y : ExEl U P}
    {l1 l2 l3 : List (ExEl U P)} (hd : d.exchs = l1 ++ x :: (l2 ++ y :: l3)) (hxy : env.canon x.uid = env.canon y.uid) (hy : env.canon y.uid ≠ y.uid)
    (hfy : ∀ fd, env.flowFile y.uri = .doc fd → env.canon fd.uuid ≠ fd.uuid) (hn : a.procs.get? d.uuid = none) :
    ∃ e a', createProcess env d a = .err e a' := by
  cases h : createProcess env d a with
  | err e a' => exact ⟨e, a', rfl⟩
  | ok u a' =>
    exfalso
    unfold createProcess at h
    cases hrf : refFlow d with
    | error e => rw [hrf] at h; cases h
    | ok rf =>
      rw [hrf] at h
      simp only at h
      cases hr : readExs env d.exchs a with
      | err e a1 => rw [hr] at h; cases h
      | ok l a1 =>
        have hnone : ∃ z ∈ l, z.flow = none := by
          -- up to the first of the two, then the rest
          have aux : ∀ (l1 : List (ExEl U P)) (a : Ar U Q T) (l : List (X U)), Usual env a → Consistent env (l1 ++ x :: (l2 ++ y :: l3)) →
              readExs env (l1 ++ x :: (l2 ++ y :: l3)) a = .ok l a1 → ∃ z ∈ l, z.flow = none := by
            intro l1
            induction l1 with
            | nil =>
              intro a l ha hc hr
              rw [List.nil_append, readExs_cons] at hr
              cases hf : flowOf env x a with
              | err e b => rw [hf] at hr; cases hr
              | ok f b =>
                rw [hf] at hr
                simp only at hr
                cases hr' : readExs env (l2 ++ y :: l3) b with
                | err e b2 => rw [hr'] at hr; cases hr
                | ok l' b2 =>
                  rw [hr'] at hr
                  simp only [Out.ok.injEq] at hr
                  obtain ⟨rfl, -⟩ := hr
                  rcases flowOf_spec ha (hc x (by simp)) with ⟨b', h1, h2, -, h4⟩ | ⟨b', h1, -⟩ | ⟨e, b', h1, -⟩
                  · rw [hf] at h1; cases h1
                    obtain ⟨z, hz, e⟩ := capital_reads (x := y) h2 (fun w hw => hc w (by simp at hw ⊢; exact .inr hw)) hy hfy
                      ((h4 _).mpr (.inr hxy.symm)) (by simp) hr'
                    exact ⟨z, List.mem_cons_of_mem _ hz, e⟩
                  · rw [hf] at h1; cases h1
                    exact ⟨_, List.mem_cons_self, rfl⟩
                  · rw [hf] at h1; cases h1
            | cons w l1 ih =>
              intro a l ha hc hr
              rw [List.cons_append, readExs_cons] at hr
              cases hf : flowOf env w a with
              | err e b => rw [hf] at hr; cases hr
              | ok f b =>
                rw [hf] at hr
                simp only at hr
                cases hr' : readExs env (l1 ++ x :: (l2 ++ y :: l3)) b with
                | err e b2 => rw [hr'] at hr; cases hr
                | ok l' b2 =>
                  rw [hr'] at hr
                  simp only [Out.ok.injEq] at hr
                  obtain ⟨rfl, rfl⟩ := hr
                  have hb : Usual env b := by
                    rcases flowOf_spec ha (hc w (by simp)) with ⟨b', h1, h2, -⟩ | ⟨b', h1, h2, -⟩ | ⟨e, b', h1, -⟩
                    · rw [hf] at h1; cases h1; exact h2
                    · rw [hf] at h1; cases h1; exact ⟨ha.idem, by rw [h2]; exact ha.flows⟩
                    · rw [hf] at h1; cases h1
                  obtain ⟨z, hz, e⟩ := ih b l' hb (fun v hv => hc v (by simp at hv ⊢; exact .inr hv)) hr'
                  exact ⟨z, List.mem_cons_of_mem _ hz, e⟩
          rw [hd] at hr hc
          exact aux l1 a l ha hc hr
        obtain ⟨-, -, r3, -⟩ := readExs_right ha hc hr
        rw [hr] at h
        simp only at h
        rw [r3, hn] at h
        simp only at h
        split at h
        · cases h
        · obtain ⟨e, p, hp⟩ := addXs_none (rf := rf) hnone ({} : Proc.State U Q T)
          rw [hp] at h
          cases h

/-- **C172** (fails) a failure after the flows have been read leaves the process in the archive, with what it had: asking for it again returns it, without
error, whatever the files say -/
theorem failed_kept {env env' : Env U P} {d d' : ProcDoc U P} {a a' : Ar U Q T} {e : Err} {l : List (X U)} {a1 : Ar U Q T} {rf : Option (U × Dir)}
    (hrf : refFlow d = .ok rf) (hr : readExs env d.exchs a = .ok l a1) (hn : a1.procs.get? d.uuid = none) (hnc : a1.procs.has (env.canon d.uuid) = false)
    (h : createProcess env d a = .err e a') :
    ∃ st, a'.procs.get? (env.canon d.uuid) = some st ∧ retrieve env' (env.canon d.uuid) d' a' = .ok (env.canon d.uuid) a' := by
  unfold createProcess at h
  rw [hrf] at h
  simp only [hr, hn, hnc, Bool.false_eq_true, if_false] at h
  cases hx : addXs rf l ({} : Proc.State U Q T) with
  | ok _ p => rw [hx] at h; cases h
  | err e' p =>
    rw [hx] at h
    simp only [Out.err.injEq] at h
    obtain ⟨-, rfl⟩ := h
    have hg : (a1.procs.set (env.canon d.uuid) p).get? (env.canon d.uuid) = some p := Dict.get?_set_self _ _ _
    refine ⟨p, hg, ?_⟩
    unfold retrieve
    rw [if_pos]
    exact (Dict.has_iff _ _).mpr ((Dict.mem_keys_iff _ _).mpr ⟨p, hg⟩)

/-- a flow that was not loaded and whose file is not in the directory: the process cannot be loaded (in a zip file it is loaded with a dummy flow) -/
theorem missing_file_fails {env : Env U P} {d : ProcDoc U P} {a : Ar U Q T} (ha : Usual env a) (hc : Consistent env d.exchs) {x : ExEl U P} (hx : x ∈ d.exchs)
    (hno : ∀ y ∈ d.exchs, env.canon y.uid = env.canon x.uid → env.flowFile y.uri = .noFile) (hnl : env.canon x.uid ∉ a.flows.keys) :
    ∃ e a', createProcess env d a = .err e a' := by
  have aux : ∀ (exs : List (ExEl U P)) (a : Ar U Q T), Usual env a → Consistent env exs → x ∈ exs →
      (∀ y ∈ exs, env.canon y.uid = env.canon x.uid → env.flowFile y.uri = .noFile) → env.canon x.uid ∉ a.flows.keys → ∃ e a', readExs env exs a = .err e a' := by
    intro exs
    induction exs with
    | nil => intro a _ _ h; cases h
    | cons y exs ih =>
      intro a ha hc hx hno hnl
      rw [readExs_cons]
      by_cases hy : env.canon y.uid = env.canon x.uid
      · have : a.flows.has y.uid = false := by
          cases hh : a.flows.has y.uid with
          | false => rfl
          | true =>
            have hm := (Dict.has_iff _ _).mp hh
            rw [← ha.flows _ hm, hy] at hm
            exact absurd hm hnl
        have hf : flowOf env y a = .err .fileNotFound a := by
          simp [flowOf, childFlow, this, fetchFlow, hno y (by simp) hy]
        rw [hf]
        exact ⟨_, _, rfl⟩
      · have hx' : x ∈ exs := by
          rcases List.mem_cons.mp hx with rfl | h
          · exact absurd rfl hy
          · exact h
        have next : ∀ f b, flowOf env y a = .ok f b → Usual env b ∧ env.canon x.uid ∉ b.flows.keys := by
          intro f b hf
          rcases flowOf_spec ha (hc y (by simp)) with ⟨b', h1, h2, -, h4⟩ | ⟨b', h1, h2, -⟩ | ⟨e, b', h1, -⟩
          · rw [hf] at h1; cases h1
            refine ⟨h2, fun hm => ?_⟩
            rcases (h4 _).mp hm with h | h
            · exact hnl h
            · exact hy h.symm
          · rw [hf] at h1; cases h1
            exact ⟨⟨ha.idem, by rw [h2]; exact ha.flows⟩, by rw [h2]; exact hnl⟩
          · rw [hf] at h1; cases h1
        cases hf : flowOf env y a with
        | err e b => exact ⟨_, _, rfl⟩
        | ok f b =>
          obtain ⟨n1, n2⟩ := next f b hf
          obtain ⟨e, b', he⟩ := ih b n1 (fun v hv => hc v (List.mem_cons_of_mem _ hv)) hx' (fun v hv => hno v (List.mem_cons_of_mem _ hv)) n2
          simp only [he]
          exact ⟨_, _, rfl⟩
  unfold createProcess
  cases refFlow d with
  | error e => exact ⟨_, _, rfl⟩
  | ok rf =>
    obtain ⟨e, a', h⟩ := aux d.exchs a ha hc hx hno hnl
    simp only [h]
    exact ⟨_, _, rfl⟩

/-! ### units -/

theorem unitConv_right {us : List UnitEl} {t t' : Dict String ℚ} (h : unitConv us t = .ok t') :
    (∀ u ∈ us, u.mean ≠ 0) ∧ (∀ n, n ∉ us.map (·.name) → t'.get? n = t.get? n) ∧
      ((us.map (·.name)).Nodup → ∀ u ∈ us, t'.get? u.name = some (1 / u.mean)) := by
  induction us generalizing t with
  | nil => unfold unitConv at h; cases h; simp
  | cons c us ih =>
    unfold unitConv at h
    split at h
    · cases h
    · rename_i h0
      obtain ⟨i1, i2, i3⟩ := ih h
      refine ⟨?_, ?_, ?_⟩
      · intro u hu
        rcases List.mem_cons.mp hu with rfl | hu
        · exact h0
        · exact i1 u hu
      · intro n hn
        simp only [List.map_cons, List.mem_cons, not_or] at hn
        rw [i2 n hn.2, Dict.get?_set_ne _ _ (Ne.symm hn.1)]
      · intro hnd u hu
        simp only [List.map_cons, List.nodup_cons] at hnd
        rcases List.mem_cons.mp hu with rfl | hu
        · rw [i2 _ hnd.1, Dict.get?_set_self]
        · exact i3 hnd.2 u hu

/-- **C170** the unit of a flow property is the reference unit of its unit group, and the conversion table lists all its units, if the internal
identifiers of the units are their positions -/
theorem units_right {env : Env U P} {u : U} {d : UnitDoc} {q : Qty} (hd : env.unitFile u = .doc d) (hpos : ∀ (i : ℕ) (x : UnitEl), d.units[i]? = some x → x.id = i)
    (hn : (d.units.map (·.name)).Nodup) (h : createUnit env u = .ok q) :
    (∃ x ∈ d.units, x.id = d.refUnit ∧ q.unit = x.name) ∧ ∀ x ∈ d.units, q.conv.get? x.name = some (1 / x.mean) := by
  unfold createUnit at h
  rw [hd] at h
  simp only at h
  cases hg : d.units[d.refUnit]? with
  | none => rw [hg] at h; cases h
  | some r =>
    rw [hg] at h
    simp only at h
    cases ht : unitConv d.units [] with
    | error e => rw [ht] at h; cases h
    | ok t =>
      rw [ht] at h
      cases h
      exact ⟨⟨r, List.mem_of_getElem? hg, hpos _ _ hg, rfl⟩, (unitConv_right ht).2.2 hn⟩

/-- (fails) if they are numbered from one, the unit of the flow property is never the reference unit -/
theorem units_from_one {env : Env U P} {u : U} {d : UnitDoc} {q : Qty} (hd : env.unitFile u = .doc d) (hpos : ∀ (i : ℕ) (x : UnitEl), d.units[i]? = some x → x.id = i + 1)
    (hn : (d.units.map (·.name)).Nodup) (h : createUnit env u = .ok q) {x : UnitEl} (hx : x ∈ d.units) (hr : x.id = d.refUnit) : q.unit ≠ x.name := by
  unfold createUnit at h
  rw [hd] at h
  simp only at h
  cases hg : d.units[d.refUnit]? with
  | none => rw [hg] at h; cases h
  | some r =>
    rw [hg] at h
    simp only at h
    cases ht : unitConv d.units [] with
    | error e => rw [ht] at h; cases h
    | ok t =>
      rw [ht] at h
      cases h
      intro he
      simp only at he
      obtain ⟨i, hi⟩ := List.getElem?_of_mem hx
      have h1 := hpos _ _ hi
      have h2 := hpos _ _ hg
      have : d.refUnit = i := by
        have hlt : i < d.units.length := (List.getElem?_eq_some_iff.mp hi).1
        have hlt' : d.refUnit < d.units.length := (List.getElem?_eq_some_iff.mp hg).1
        have hinj := List.Nodup.getElem_inj_iff hn (i := d.refUnit) (j := i) (hi := by simpa using hlt') (hj := by simpa using hlt)
        rw [← hinj]
        simp only [List.getElem_map]
        rw [(List.getElem?_eq_some_iff.mp hi).2, (List.getElem?_eq_some_iff.mp hg).2]
        exact he
      omega

/-! ### examples

Identifiers are numbers; `100 + n` is another spelling of `n`. -/

namespace Ex

def env : Env ℕ ℕ where
  canon := (· % 100)
  unitFile := fun u => if u = 50 then .doc ⟨1, [⟨0, "g", 1/1000⟩, ⟨1, "kg", 1⟩, ⟨2, "t", 1000⟩]⟩ else .missing
  qtyFile := fun p => if p = 40 then .doc ⟨40, 50⟩ else .missing
  flowFile := fun p => if p = 1 then .doc ⟨1, 0, [⟨0, 1, 40, 40⟩]⟩ else if p = 2 then .doc ⟨2, 0, [⟨0, 1, 40, 40⟩, ⟨1, 3, 41, 41⟩]⟩
    else if p = 4 then .doc ⟨104, 0, [⟨0, 1, 40, 40⟩]⟩ else .missing

/-- a process of one reference flow, a flow that is listed twice and one without a file -/
def doc : ProcDoc ℕ ℕ := ⟨7, some 0, [⟨0, 1, 1, .output, some 1, true⟩, ⟨1, 2, 2, .input, some 3, true⟩, ⟨2, 2, 2, .input, some 4, false⟩, ⟨3, 3, 3, .input, none, false⟩]⟩

def a0 : Ar ℕ ℕ ℕ := ⟨[], [], []⟩

theorem usual0 : Usual env a0 := ⟨fun u => Nat.mod_mod u 100, by simp [a0, Dict.keys]⟩

theorem flowFile_uuid {p : ℕ} {fd : FlowDoc ℕ ℕ} (h : env.flowFile p = .doc fd) : fd.uuid % 100 = p ∧ (p = 1 ∨ p = 2 ∨ p = 4 ∧ fd.uuid = 104) := by
  simp only [env] at h
  split at h
  · cases h; rename_i h; exact ⟨h.symm, .inl h⟩
  · split at h
    · cases h; rename_i h; exact ⟨h.symm, .inr (.inl h)⟩
    · split at h
      · cases h; rename_i h; exact ⟨h.symm, .inr (.inr ⟨h, rfl⟩)⟩
      · cases h

theorem consistent : Consistent env doc.exchs := by
  intro x hx fd hfd
  have h := (flowFile_uuid hfd).1
  simp only [doc, List.mem_cons, List.not_mem_nil, or_false] at hx
  rcases hx with rfl | rfl | rfl | rfl <;> exact h

/-- the process is loaded: the reference, the total of the repeated flow, a dummy for the flow without a file; the hypotheses of `loaded` are met -/
example : a0.procs.get? doc.uuid = none ∧ ((createProcess env doc a0).value? = some 7) ∧
    (createProcess env doc a0).state.flows.keys = [1, 2, 3] ∧
    ((createProcess env doc a0).state.procs.get? 7).map (fun st => (st.refs, st.exchs.map fun p => (p.1.flow, p.2.value))) =
      some ([⟨1, .output, none⟩], [(1, some 1), (2, some 7), (3, none)]) ∧
    Total env.canon 2 .input doc.exchs = 7 := by decide +kernel

/-- with the reference flow in another spelling the process is loaded without a reference -/
def doc2 : ProcDoc ℕ ℕ := ⟨8, some 0, [⟨0, 101, 1, .output, some 1, false⟩, ⟨1, 2, 2, .input, some 3, false⟩]⟩

example : Consistent env doc2.exchs := by
  intro x hx fd hfd
  have h := (flowFile_uuid hfd).1
  simp only [doc2, List.mem_cons, List.not_mem_nil, or_false] at hx
  rcases hx with rfl | rfl <;> exact h

example : (createProcess env doc2 a0).value? = some 8 ∧ ((createProcess env doc2 a0).state.procs.get? 8).map (fun st => st.refs) = some [] := by decide +kernel

/-- a flow in another spelling, here and in its file, listed twice: the load fails -/
def doc3 : ProcDoc ℕ ℕ := ⟨9, some 0, [⟨0, 1, 1, .output, some 1, false⟩, ⟨1, 104, 4, .input, some 3, false⟩, ⟨2, 104, 4, .input, some 4, false⟩]⟩

theorem consistent3 : Consistent env doc3.exchs := by
  intro x hx fd hfd
  have h := (flowFile_uuid hfd).1
  simp only [doc3, List.mem_cons, List.not_mem_nil, or_false] at hx
  rcases hx with rfl | rfl | rfl <;> exact h

example : ∃ e a', createProcess env doc3 a0 = .err e a' := by
  refine capitals_twice_fail (l1 := [⟨0, 1, 1, .output, some 1, false⟩]) (l2 := []) (l3 := []) usual0 consistent3 rfl rfl (by decide) ?_ rfl
  · intro fd hfd
    obtain ⟨-, h | h | ⟨-, h⟩⟩ := flowFile_uuid hfd
    · simp at h
    · simp at h
    · rw [h]; decide

/-- **C172** (fails) it fails with AttributeError; the process is then in the archive with the exchanges added so far, and asking for it again gives it, without error -/
theorem failed_process_stays : (createProcess env doc3 a0).error? = some .attribute ∧
    ((createProcess env doc3 a0).state.procs.get? 9).map (fun st => st.exchs.map fun p => (p.1.flow, p.2.value)) = some [(1, some 1), (4, some 3)] ∧
    (retrieve env 9 doc3 (createProcess env doc3 a0).state).value? = some 9 := by decide +kernel

/-- a repeated exchange of amount zero with a comment also ends the load -/
theorem zero_with_comment : (createProcess env (⟨9, none, [⟨0, 1, 1, .output, some 1, false⟩, ⟨1, 1, 1, .output, some 0, true⟩, ⟨2, 2, 2, .input, some 4, false⟩]⟩ : ProcDoc ℕ ℕ) a0).error? = some .attribute := by
  decide +kernel

/-- `failed_kept` is met by the first of these -/
example : ∃ rf l a1, refFlow doc3 = .ok rf ∧ readExs env doc3.exchs a0 = .ok l a1 ∧ a1.procs.get? doc3.uuid = none ∧ a1.procs.has (env.canon doc3.uuid) = false := by
  cases h : readExs env doc3.exchs a0 with
  | err e a =>
    have : (readExs env doc3.exchs a0).error? = none := by decide +kernel
    rw [h] at this; cases this
  | ok l a1 =>
    have : a1.procs = [] := (readExs_right usual0 consistent3 h).2.2.1
    exact ⟨_, l, a1, rfl, rfl, by rw [this]; rfl, by rw [this]; rfl⟩

/-- in a directory a file that is not there ends the load; in a zip file it does not (above) -/
def envDir : Env ℕ ℕ := { env with flowFile := fun p => if p = 3 then .noFile else env.flowFile p }

example : ∃ e a', createProcess envDir doc a0 = .err e a' := by
  refine missing_file_fails (x := ⟨3, 3, 3, .input, none, false⟩) ⟨usual0.idem, usual0.flows⟩ ?_ (by decide) ?_ (by decide)
  · intro x hx fd hfd
    have hfd' : env.flowFile x.uri = .doc fd := by
      simp only [envDir] at hfd
      split at hfd
      · cases hfd
      · exact hfd
    exact consistent x hx fd hfd'
  · intro y hy hc
    simp only [doc, List.mem_cons, List.not_mem_nil, or_false] at hy
    rcases hy with rfl | rfl | rfl | rfl <;> first | rfl | (exfalso; revert hc; decide)

/-- likewise for the file of a flow property: in a directory it must be there -/
example : (createProcess { env with qtyFile := fun _ => .noFile } doc a0).error? = some .fileNotFound ∧
    (createProcess { env with qtyFile := fun _ => .missing } doc a0).value? = some 7 ∧
    (createProcess { env with qtyFile := fun _ => .badXml } doc a0).value? = some 7 := by decide +kernel

/-- units: identifiers that are positions -/
example : (∀ (i : ℕ) (x : UnitEl), ([⟨0, "g", 1/1000⟩, ⟨1, "kg", 1⟩, ⟨2, "t", 1000⟩] : List UnitEl)[i]? = some x → x.id = i) ∧
    createUnit env 50 = .ok ⟨"kg", [("g", 1000), ("kg", 1), ("t", 1/1000)]⟩ := by
  constructor
  · intro i x h
    match i with
    | 0 => cases h; rfl
    | 1 => cases h; rfl
    | 2 => cases h; rfl
  · decide +kernel

/-- units numbered from one: the unit is not the reference unit -/
def envOne : Env ℕ ℕ := { env with unitFile := fun _ => .doc ⟨1, [⟨1, "kg", 1⟩, ⟨2, "t", 1000⟩]⟩ }

theorem wrong_unit : createUnit envOne 50 = .ok ⟨"t", [("kg", 1), ("t", 1/1000)]⟩ := by decide +kernel

example : (∀ (i : ℕ) (x : UnitEl), ([⟨1, "kg", 1⟩, ⟨2, "t", 1000⟩] : List UnitEl)[i]? = some x → x.id = i + 1) := by
  intro i x h
  match i with
  | 0 => cases h; rfl
  | 1 => cases h; rfl

end Ex
end Ilcd
