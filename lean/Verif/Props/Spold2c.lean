import Verif.Props.Spold2b
import Mathlib.Tactic.FinCases

/-!
Loading EcoSpold v2 datasets: datasets that list an exchange twice, and examples.
-/

set_option linter.unusedSectionVars false

namespace Spold
open Proc (Dir Key)

variable {P F Q U T : Type} [DecidableEq P] [DecidableEq F] [DecidableEq T]

/-- the exchange `k` has an amount for the reference `r` -/
def HasAmt (r k : Key F T) (p : Proc.State F Q T) : Prop :=
  ∃ e, p.exchs.get? k = some e ∧ (e.vdict.has r = true ∨ (e.isRef = true ∧ k = r ∧ e.value ≠ none))

theorem hasAmt_again {r k : Key F T} {p : Proc.State F Q T} (h : HasAmt r k p) {v : ℚ} (hv : v ≠ 0) :
    ∃ e s, Proc.addExchange id k.flow k.dir (some r) (some v) k.term false p = .err e s := by
  obtain ⟨e, he, h⟩ := h
  have hk : (⟨k.flow, k.dir, k.term⟩ : Key F T) = k := rfl
  simp only [Proc.addExchange, hk, he, hv, if_false]
  cases hr : Proc.isRefOf p r with
  | false => exact ⟨.ambiguousReference, p, by simp [Proc.setItem]⟩
  | true =>
    rcases h with h | ⟨h1, h2, h3⟩
    · exact ⟨.duplicate, p, by simp [Proc.setItem, h]⟩
    · cases hvd : e.vdict.has r with
      | true => exact ⟨.duplicate, p, by simp [Proc.setItem, hvd]⟩
      | false =>
        obtain ⟨w, hw⟩ := Option.ne_none_iff_exists'.mp h3
        exact ⟨.duplicate, p, by simp [Proc.setItem, hvd, h1, h2, Proc.setValue, hw]⟩

theorem addExchange_hasAmt {r k : Key F T} {p p' : Proc.State F Q T} {v : ℚ} (hv : v ≠ 0)
    (h : Proc.addExchange id k.flow k.dir (some r) (some v) k.term false p = .ok () p') :
    HasAmt r k p' ∧ ∀ k', k' ≠ k → HasAmt r k' p → HasAmt r k' p' := by
  have hk : (⟨k.flow, k.dir, k.term⟩ : Key F T) = k := rfl
  have hset : ∀ e e' : Proc.Exch F T, Proc.setItem k e r (Proc.isRefOf p r) (some v) = .ok e' →
      e'.vdict.has r = true ∨ (e'.isRef = true ∧ k = r ∧ e'.value ≠ none) := by
    intro e e' h
    unfold Proc.setItem at h
    split at h
    · cases h
    · split at h
      · cases h
      · split at h
        · rename_i hr
          split at h
          · rename_i hkr
            unfold Proc.setValue at h
            split at h
            · cases h
            · cases h; exact Or.inr ⟨hr, hkr, by simp⟩
          · have : some v ≠ some (0 : ℚ) := by simpa using hv
            simp [hv] at h
        · cases h
          exact Or.inl (by simp [Dict.has])
  have fin : ∀ e', (e'.vdict.has r = true ∨ (e'.isRef = true ∧ k = r ∧ e'.value ≠ none)) → p' = { p with exchs := p.exchs.set k e' } →
      HasAmt r k p' ∧ ∀ k', k' ≠ k → HasAmt r k' p → HasAmt r k' p' := by
    intro e' h1 h2
    subst h2
    refine ⟨⟨e', Dict.get?_set_self _ _ _, h1⟩, ?_⟩
    rintro k' hk' ⟨e2, h3, h4⟩
    exact ⟨e2, by simp only [Dict.get?_set_ne _ _ (Ne.symm hk')]; exact h3, h4⟩
  simp only [Proc.addExchange, hk, hv, if_false] at h
  cases hg : p.exchs.get? k with
  | none =>
    simp only [hg] at h
    split at h
    · cases h
    · have hid : (⟨k.flow, k.dir, k.term.map id⟩ : Key F T) = k := by rw [Option.map_id]; rfl
      rw [hid] at h
      cases hs : Proc.setItem k {} r (Proc.isRefOf p r) (some v) with
      | error x => simp [hs] at h
      | ok e' =>
        simp only [hs, Out.ok.injEq, true_and] at h
        exact fin e' (hset _ _ hs) h.symm
  | some e =>
    simp only [hg] at h
    cases hs : Proc.setItem k e r (Proc.isRefOf p r) (some v) with
    | error x =>
      rw [hs] at h
      cases x <;> simp at h
    | ok e' =>
      simp only [hs, Out.ok.injEq, true_and] at h
      exact fin e' (hset _ _ hs) h.symm

theorem addKV_nodup {r : Key F T} {l : Dict (Key F T) ℚ} {p p' : Proc.State F Q T} (hv : ∀ kv ∈ l, kv.2 ≠ 0) (h : addKV r l p = .ok () p') :
    l.keys.Nodup ∧ ∀ k, HasAmt r k p → k ∉ l.keys := by
  induction l generalizing p with
  | nil => exact ⟨by simp [Dict.keys], fun k _ => by simp [Dict.keys]⟩
  | cons kv l ih =>
    obtain ⟨k, v⟩ := kv
    have hv0 : v ≠ 0 := hv (k, v) (by simp)
    simp only [addKV] at h
    cases hx : Proc.addExchange id k.flow k.dir (some r) (some v) k.term false p with
    | err e s => simp [hx] at h
    | ok _ p1 =>
      simp only [hx] at h
      obtain ⟨h1, h2⟩ := addExchange_hasAmt hv0 hx
      obtain ⟨i1, i2⟩ := ih (fun kv hkv => hv kv (List.mem_cons_of_mem _ hkv)) h
      have hnot : ∀ k', HasAmt r k' p → k' ≠ k := by
        rintro k' hk' rfl
        obtain ⟨e, s, he⟩ := hasAmt_again hk' hv0
        rw [hx] at he; cases he
      refine ⟨?_, ?_⟩
      · simp only [Dict.keys, List.map_cons, List.nodup_cons]
        exact ⟨i2 k h1, i1⟩
      · intro k' hk'
        simp only [Dict.keys, List.map_cons, List.mem_cons, not_or]
        exact ⟨hnot k' hk', i2 k' (h2 k' (hnot k' hk') hk')⟩

theorem collect_bad {els : List (El F U T)} {units : Dict F U} {e : El F U T} (he : e ∈ els) (h : ¬ Readable e) :
    ∃ x u, collect els units = .err x u := by
  induction els generalizing units with
  | nil => cases he
  | cons e' es ih =>
    unfold collect
    by_cases hk : e'.kind = .param ∨ e'.kind = .impact
    · rw [if_pos hk]
      rcases List.mem_cons.mp he with rfl | he'
      · exact absurd (by unfold Readable; tauto) h
      · exact ih he'
    · rw [if_neg hk]
      cases h1 : createFlow e' units with
      | error x => exact ⟨_, _, rfl⟩
      | ok u =>
        cases h2 : collectOne e' with
        | error x => simp only [h2]; exact ⟨_, _, rfl⟩
        | ok x =>
          rcases List.mem_cons.mp he with rfl | he'
          · exfalso
            apply h
            right; right
            constructor
            · unfold createFlow at h1
              cases hkk : e.kind <;> simp [hkk] at h1 ⊢
            · intro hg
              simp [collectOne, hg] at h2
          · obtain ⟨y, u', hy⟩ := ih (units := u) he'
            simp only [h2, hy]
            exact ⟨_, _, rfl⟩

/-- **C155** a dataset with an exchange of no direction, or with an element that is no exchange, is refused -/
theorem unreadable_refused (env : Env P F Q U T) (p : P) (r : F) (els : List (El F U T)) (hf : env.file p r = some els) (a : Ar P F Q U T)
    (hp : a.procs.get? p = none) {e : El F U T} (he : e ∈ els) (hk1 : e.kind ≠ .param) (hk2 : e.kind ≠ .impact)
    (h : e.grp = .none ∨ e.kind = .other) : ∃ x a', loadOne env true p r a = .err x a' := by
  have hr : ¬ Readable e := by
    rintro (h1 | h1 | ⟨h1 | h1, h2⟩)
    · exact hk1 h1
    · exact hk2 h1
    · rcases h with h | h
      · exact h2 h
      · rw [h1] at h; cases h
    · rcases h with h | h
      · exact h2 h
      · rw [h1] at h; cases h
  have hx : ∀ rx st u, ∃ x a', loadXs env p rx els st u a = .err x a' := by
    intro rx st u
    obtain ⟨x, u', hc⟩ := collect_bad (units := u) he hr
    exact ⟨x, _, by unfold loadXs; rw [hc]⟩
  unfold loadOne
  simp only [hp, hf]
  unfold fill
  split
  · split
    · exact ⟨_, _, rfl⟩
    · split
      · exact ⟨_, _, rfl⟩
      · rw [if_pos rfl]; exact hx _ _ _
  · rw [if_pos rfl]; exact hx _ _ _

/-- **C157** loading all processes succeeds only if each is loaded: the first failure ends it -/
theorem loadAll_each (env : Env P F Q U T) (b : Bool) (l : List (P × List F)) (a a' : Ar P F Q U T) (h : loadAll env b l a = .ok () a') :
    ∀ pr ∈ l, ∃ a1 a2, fetch env b pr.1 pr.2 a1 = .ok () a2 := by
  induction l generalizing a with
  | nil => simp
  | cons pr l ih =>
    obtain ⟨p, rs⟩ := pr
    unfold loadAll at h
    cases hx : fetch env b p rs a with
    | err e s => simp [hx] at h
    | ok u s =>
      simp only [hx] at h
      intro pr' hpr
      rcases List.mem_cons.mp hpr with rfl | hpr
      · exact ⟨a, s, hx⟩
      · exact ih s h pr' hpr

theorem amts_once {els : List (El F U T)} (h : ∀ e ∈ els, Readable e) (hn : (amts els).keys.Nodup) :
    els.Pairwise fun e e' => ∀ k v v', Lists e k v → ¬ Lists e' k v' := by
  induction els with
  | nil => exact List.Pairwise.nil
  | cons e es ih =>
    rw [List.pairwise_cons]
    have hes : ∀ e' ∈ es, Readable e' := fun e' he' => h e' (List.mem_cons_of_mem _ he')
    unfold amts at hn ih
    rw [List.filterMap_cons] at hn
    constructor
    · intro e' he' k v v' h1 h2
      rw [lists_iff _ _ _ (h e (by simp))] at h1
      rw [lists_iff _ _ _ (hes e' he')] at h2
      simp only [h1, Dict.keys, List.map_cons, List.nodup_cons] at hn
      exact hn.1 (List.mem_map.mpr ⟨(k, v'), List.mem_filterMap.mpr ⟨e', he', h2⟩, rfl⟩)
    · apply ih hes
      cases hl : lkey e with
      | none => simpa [hl] using hn
      | some kv =>
        simp only [hl, Dict.keys, List.map_cons, List.nodup_cons] at hn
        exact hn.2

/-- **C155** a linked dataset that lists an exchange twice is refused -/
theorem repeated_refused {a : Ar P F Q U T} (ha : Hist a) (env : Env P F Q U T) (hl : env.linked = true) (p : P) (r : F) (els : List (El F U T))
    (hf : env.file p r = some els) (hr : ∀ e ∈ els, e.kind = .param ∨ e.kind = .impact ∨ ((e.kind = .inter ∨ e.kind = .elem) ∧ e.grp ≠ .none))
    (hnew : ∀ st, a.procs.get? p = some st → ⟨r, .output, none⟩ ∉ st.refs)
    (h2 : ¬ els.Pairwise fun e e' => ∀ k v v', Lists e k v → ¬ Lists e' k v') :
    ∃ e a', loadOne env true p r a = .err e a' := by
  have hLk := hist_lk ha
  have hfill : ∀ st : Proc.State F Q T, st.allocSum = 0 → ∃ e a', fill env true p r els st a = .err e a' := by
    intro st hs
    unfold fill
    simp only [hl, if_true]
    cases grab r els a.units with
    | error e => exact ⟨_, _, rfl⟩
    | ok u =>
      obtain ⟨p1, e1, e2, e3⟩ := setRx_refs env r st hs
      simp only [e1, loadXs]
      obtain ⟨xs, u', c1, c2⟩ := collect_ok els u hr
      rw [c1]
      simp only [addXs_eq env hl, c2]
      cases hx : addKV (⟨r, .output, none⟩ : Key F T) (els.filterMap lkey) p1 with
      | err e s => exact ⟨_, _, rfl⟩
      | ok w s =>
        exfalso
        apply h2
        apply amts_once hr
        refine (addKV_nodup (p := p1) ?_ hx).1
        rintro ⟨k, v⟩ hkv
        obtain ⟨e, _, he⟩ := (mem_amts hr k v).mp hkv
        exact he.2.2.2.1
  unfold loadOne
  cases hp : a.procs.get? p with
  | none => simp only [hf]; exact hfill {} rfl
  | some st =>
    obtain ⟨h3, h4⟩ := hLk p st hp
    have : (rkey r : Key F T) ∉ st.refs := hnew st hp
    simp only [lk_hasReference h3, this, decide_false, hf]
    exact hfill st h4

/-! ### examples -/

namespace Ex

/-- heat and power of process 1: two datasets, with fuel from process 2 and CO2; the other product is listed with amount zero -/
def fileA : ℕ → List (El ℕ String ℕ)
  | 10 => [⟨.inter, 10, "MJ", .output 0, false, 1, some 1, false⟩, ⟨.inter, 11, "kWh", .output 2, true, 0, none, false⟩,
      ⟨.inter, 20, "kg", .input, false, 3, some 2, true⟩, ⟨.elem, 30, "kg", .output 4, false, 9, none, false⟩, ⟨.param, 0, "", .none, false, 0, none, false⟩]
  | 11 => [⟨.inter, 11, "kWh", .output 0, false, 2, none, false⟩, ⟨.inter, 20, "kg", .input, false, 5, some 2, true⟩,
      ⟨.inter, 21, "kg", .input, false, 7, some 3, false⟩]
  | _ => []

def env : Env ℕ ℕ Unit String ℕ where
  file := fun p r => if p = 1 ∧ (r = 10 ∨ r = 11) then some (fileA r) else none
  linked := true
  cf := fun _ _ => none

theorem readableA : ∀ r ∈ [10, 11], ∀ e ∈ fileA r,
    e.kind = .param ∨ e.kind = .impact ∨ ((e.kind = .inter ∨ e.kind = .elem) ∧ e.grp ≠ .none) := by decide

theorem soundA : ∀ r ∈ [10, 11], Sound [10, 11] r (fileA r) := by
  intro r hr
  have hrd := readableA r hr
  refine ⟨hrd, amts_once hrd ?_, ?_, ?_, ?_⟩
  · fin_cases hr <;> decide +kernel
  · fin_cases hr <;> decide
  · fin_cases hr
    · exact ⟨1, (mem_amts hrd _ _).mp (by decide +kernel)⟩
    · exact ⟨2, (mem_amts hrd _ _).mp (by decide +kernel)⟩
  · intro r' hr' hne v hv
    have := (mem_amts hrd _ _).mpr hv
    have hk : (⟨r', .output, none⟩ : Key ℕ ℕ) ∈ (amts (fileA r)).keys := List.mem_map.mpr ⟨_, this, rfl⟩
    revert hk
    fin_cases hr <;> fin_cases hr' <;> first | exact absurd rfl hne | decide +kernel

/-- the hypotheses of `linked_loaded` are met: 5 kg of fuel for 2 kWh -/
example : ∃ a' st, fetch env true 1 [10, 11] ⟨[], []⟩ = .ok () a' ∧ a'.procs.get? 1 = some st ∧
    Proc.getItem env.cf st ⟨20, .input, some 2⟩ ⟨11, .output, none⟩ = .ok (5 / 2) ∧
    Proc.getItem env.cf st ⟨21, .input, some 3⟩ ⟨10, .output, none⟩ = .ok 0 := by
  obtain ⟨a', st, h1, h2, h3, h4, h5, _⟩ := linked_loaded env rfl 1 [10, 11] (by simp) (by decide) fileA
    (by intro r hr; fin_cases hr <;> rfl) soundA ⟨[], []⟩ rfl
  have hm := fun r hr => mem_amts (readableA r hr)
  refine ⟨a', st, h1, h2, ?_, ?_⟩
  · exact (h5 env.cf 11 (by simp) 2 ((hm 11 (by simp) _ _).mp (by decide +kernel)) ⟨20, .input, some 2⟩
      (by rw [h3]; simp)).1 5 ((hm 11 (by simp) _ _).mp (by decide +kernel))
  · refine (h5 env.cf 10 (by simp) 1 ((hm 10 (by simp) _ _).mp (by decide +kernel)) ⟨21, .input, some 3⟩
      (by rw [h3]; simp)).2 ?_ ?_
    · intro v hv
      have hk : (⟨21, .input, some 3⟩ : Key ℕ ℕ) ∈ (amts (fileA 10)).keys := List.mem_map.mpr ⟨_, (hm 10 (by simp) _ _).mpr hv, rfl⟩
      revert hk
      decide +kernel
    · rw [h4]
      exact ⟨11, by simp, 7, (hm 11 (by simp) _ _).mp (by decide +kernel)⟩

/-- a dataset that lists CO2 twice, before its input of fuel -/
def bad : List (El ℕ String ℕ) := [⟨.inter, 10, "MJ", .output 0, false, 1, none, false⟩, ⟨.elem, 30, "kg", .output 4, false, 9, none, false⟩,
  ⟨.elem, 30, "kg", .output 4, false, 4, none, false⟩, ⟨.inter, 20, "kg", .input, false, 3, some 2, true⟩]

def envBad : Env ℕ ℕ Unit String ℕ := { env with file := fun _ r => if r = 10 then some bad else none }

/-- the archive after the failed load -/
def afterBad : Ar ℕ ℕ Unit String ℕ := (loadOne envBad true 1 10 ⟨[], []⟩).state

/-- **C157** fails: loading the dataset raises, but then the process is retrieved without error, without its input of fuel -/
theorem truncated : (loadOne envBad true 1 10 ⟨[], []⟩).error? = some (.proc .duplicate) ∧
    (loadOne envBad true 1 10 afterBad).error? = none ∧
    ((retrieve envBad true 1 [10] afterBad).value?.map fun st => st.map fun st => st.exchs.keys) =
      some (some [⟨10, .output, none⟩, ⟨30, .output, none⟩]) := by decide +kernel

example : ∃ e a', loadOne envBad true 1 10 ⟨[], []⟩ = .err e a' :=
  repeated_refused (Hist.new []) envBad rfl 1 10 bad rfl (by decide) (by intro st h; cases h)
    (by
      intro h
      have := amts_nodup (els := bad) (by unfold Readable; decide) h
      revert this
      decide +kernel)

/-- a dataset with an exchange of no direction -/
def lost : List (El ℕ String ℕ) := [⟨.inter, 10, "MJ", .output 0, false, 1, none, false⟩, ⟨.elem, 30, "kg", .none, false, 9, none, false⟩]

example : ∃ x a', loadOne ({ env with file := fun _ _ => some lost }) true 1 10 ⟨[], []⟩ = .err x a' :=
  unreadable_refused _ 1 10 lost rfl ⟨[], []⟩ rfl (e := ⟨.elem, 30, "kg", .none, false, 9, none, false⟩) (by decide) (by decide) (by decide) (Or.inl rfl)

def envZ (c : Bool) : Env ℕ ℕ Unit String ℕ := { env with
  linked := false
  file := fun _ _ => some [⟨.elem, 30, "kg", .output 4, false, 9, none, false⟩, ⟨.elem, 30, "kg", .output 4, false, 0, none, c⟩] }

/-- a repeated exchange of amount zero is an error only if it has a comment -/
example : (loadOne (envZ true) true 1 10 ⟨[], []⟩).error? = some .attribute ∧ (loadOne (envZ false) true 1 10 ⟨[], []⟩).error? = none := by
  decide +kernel

example : (loadAll env true [(1, [10, 11])] ⟨[], []⟩).error? = none ∧ (loadAll envBad true [(1, [10]), (2, [10])] ⟨[], []⟩).error? ≠ none := by
  decide +kernel

/-- the hypotheses of `failed_kept` are met -/
example : loadOne envBad true 1 10 afterBad = .ok () afterBad := by
  have h : (loadOne envBad true 1 10 ⟨[], []⟩).error? = some (.proc .duplicate) := truncated.1
  have hs : afterBad = (loadOne envBad true 1 10 ⟨[], []⟩).state := rfl
  cases hx : loadOne envBad true 1 10 ⟨[], []⟩ with
  | ok _ s => rw [hx] at h; cases h
  | err e s =>
    rw [hx] at h hs
    simp only [Out.error?, Option.some.injEq] at h
    simp only [Out.state] at hs
    rw [hs]
    exact (failed_kept (Hist.new []) envBad envBad rfl true true 1 10 [10] e s hx (by rw [h]; simp) (by rw [h]; simp)).1

/-- an unlinked dataset: a reference product, a by-product with a link that is none, an exchange of amount zero -/
def fileU : List (El ℕ String ℕ) := [⟨.inter, 10, "MJ", .output 0, false, 1, none, false⟩, ⟨.inter, 11, "kWh", .output 2, true, 4, some 7, false⟩,
  ⟨.inter, 20, "kg", .input, false, 0, none, true⟩, ⟨.impact, 0, "", .none, false, 0, none, false⟩]

def envU : Env ℕ ℕ Unit String ℕ := { file := fun _ _ => some fileU, linked := false, cf := fun _ _ => none }

example : ∃ a' st, fetch envU true 1 [10] ⟨[], []⟩ = .ok () a' ∧ a'.procs.get? 1 = some st ∧ (⟨10, .output, none⟩ : Key ℕ ℕ) ∈ st.refs ∧
    (⟨11, .output, none⟩ : Key ℕ ℕ) ∉ st.refs ∧ (∃ e, st.exchs.get? ⟨20, .input, none⟩ = some e ∧ e.value = some 0 ∧ e.vdict = []) := by
  obtain ⟨a', st, h1, h2, h3, _, h5, _⟩ := unlinked_loaded envU rfl 1 10 fileU rfl
    ⟨by decide, by
      simp only [fileU, List.pairwise_cons, List.mem_cons, List.not_mem_nil, or_false, forall_eq_or_imp, forall_eq]
      refine ⟨⟨?_, ?_, ?_⟩, ⟨?_, ?_⟩, ?_, by simp⟩ <;> rintro ⟨f, d, t⟩ v v' ⟨_, h1, _, _, h2⟩ ⟨_, h3, _, _, h4⟩ <;> simp_all⟩ ⟨[], []⟩ rfl
  refine ⟨a', st, h1, h2, ?_, ?_, ?_⟩
  · rw [h5]
    exact ⟨_, by simp [fileU]; exact Or.inl rfl, ⟨Or.inl rfl, rfl, Or.inl rfl⟩, rfl⟩
  · rw [h5]
    rintro ⟨e, he, ⟨_, hl, _⟩, hk⟩
    simp only [fileU, List.mem_cons, List.not_mem_nil, or_false] at he
    rcases he with rfl | rfl | rfl | rfl <;> simp_all
  · rw [h3]
    exact ⟨_, by simp [fileU]; exact Or.inr (Or.inr (Or.inl rfl)), Or.inl rfl, rfl, rfl, rfl, Or.inl ⟨rfl, rfl⟩⟩

/-- **C156** fails: fuel is known in kg, the dataset has 3000 g, and 3000 kg are recorded -/
theorem grams_as_kg : let els : List (El ℕ String ℕ) := [⟨.inter, 10, "MJ", .output 0, false, 1, none, false⟩, ⟨.inter, 20, "g", .input, false, 3000, none, false⟩]
    let o := fetch { envU with file := fun _ _ => some els } true 1 [10] (⟨[], [(20, "kg")]⟩ : Ar ℕ ℕ Unit String ℕ)
    o.state.units.get? 20 = some "kg" ∧ (o.state.procs.get? 1).bind (fun st => (st.exchs.get? ⟨20, .input, none⟩).bind (·.value)) = some 3000 := by
  decide +kernel

example : SameButUnits ([⟨.inter, 20, "g", .input, false, 3000, none, false⟩] : List (El ℕ String ℕ)) [⟨.inter, 20, "kg", .input, false, 3000, none, false⟩] :=
  .cons ⟨"kg", rfl⟩ .nil

end Ex

end Spold
